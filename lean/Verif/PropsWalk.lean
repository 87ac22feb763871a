import Verif.PropsBook
import Verif.PropsHist

/-!
C114: however many orders rest on a book and whatever their prices, the program gets from the root of the book to any order
over at most 129 nodes, and over no more nodes than there are orders.
-/

namespace Serum.Props

/-- A way down a book: the first node is given, each of the others is one of the two children of the one before it. -/
inductive WayDown (b : Slab) : Nat → List Nat → Prop where
  | here (h : Nat) : WayDown b h [h]
  | left {h p k c0 c1 : Nat} {l : List Nat} (hn : b.get h = some (.inner p k c0 c1)) (hl : WayDown b c0 l) : WayDown b h (h :: l)
  | right {h p k c0 c1 : Nat} {l : List Nat} (hn : b.get h = some (.inner p k c0 c1)) (hl : WayDown b c1 l) : WayDown b h (h :: l)

/-- Bounds on the length of every way down, and on the work of every loop that walks down: given 129 rounds, or as many as there
are orders, it comes to the same end as given any greater number. -/
structure Shallow (b : Slab) (orders : Nat) : Prop where
  ways : ∀ {r : Nat} {l : List Nat}, b.rootHandle = some r → WayDown b r l → l.length ≤ 129 ∧ l.length ≤ orders
  best : ∀ {r : Nat} {m n : Nat} (max : Bool), b.rootHandle = some r → min 129 orders ≤ m → min 129 orders ≤ n →
    b.minMaxFrom max m r = b.minMaxFrom max n r ∧ b.minMaxFrom max m r ≠ .error .panic
  insert : ∀ {r : Nat} {m n : Nat} {key : Nat}, key < 2 ^ 128 → b.rootHandle = some r → min 129 orders ≤ m →
    min 129 orders ≤ n → b.insertDescend key m r = b.insertDescend key n r ∧ b.insertDescend key m r ≠ .error .panic
  remove : ∀ {r parent : Nat} {m n : Nat} {key : Nat} {bit : Bool}, b.rootHandle = some r → min 129 orders ≤ m →
    min 129 orders ≤ n → b.removeDescend key m parent r bit = b.removeDescend key n parent r bit ∧
      b.removeDescend key m parent r bit ≠ .error .panic

/-- The first bit in which the keys of a tree differ. -/
def _root_.Serum.Tree.bit : Tree → Nat
  | .leaf _ _ => 128
  | .node _ p _ _ _ => p

theorem bit_le {t : Tree} (h : t.WF) : t.bit ≤ 128 := by
  cases t with
  | leaf => exact Nat.le_refl _
  | node => exact Nat.le_of_lt h.1

theorem keys_pos (t : Tree) : ∃ x, x ∈ t.keys := by
  have := t.leaves_pos
  unfold Tree.keys
  obtain ⟨l, hl⟩ := List.exists_mem_of_length_pos this
  exact ⟨_, List.mem_map_of_mem hl⟩

/-- Keys that agree up to and including bit `p` differ later. -/
theorem bit_lt {t : Tree} (h : t.WF) {p : Nat} (hp : p < 128) {b : Bool} {k : Nat}
    (hk : ∀ x ∈ t.keys, pre p x = pre p k ∧ critBit p x = b) : p < t.bit := by
  cases t with
  | leaf => exact hp
  | node h' p' k' l r =>
    obtain ⟨hp', _, h1, h2, _, _⟩ := h
    obtain ⟨x, hx⟩ := keys_pos l
    obtain ⟨y, hy⟩ := keys_pos r
    have gx := hk x (by rw [Tree.keys_node]; exact List.mem_append_left _ hx)
    have gy := hk y (by rw [Tree.keys_node]; exact List.mem_append_right _ hy)
    have cx := (h1 x hx).2
    have cy := (h2 y hy).2
    show p < p'
    rcases Nat.lt_trichotomy p p' with e | e | e
    · exact e
    · subst e
      rw [gx.2] at cx; rw [gy.2, cx] at cy; cases cy
    · have := critBit_of_pre e (Nat.le_of_lt hp) (gx.1.trans gy.1.symm)
      rw [cx, cy] at this; cases this

theorem depth_bit {t : Tree} (h : t.WF) : t.depth + t.bit ≤ 129 := by
  induction t with
  | leaf => simp [Tree.depth, Tree.bit]
  | node h' p k l r ihl ihr =>
    obtain ⟨hp, _, h1, h2, hl, hr⟩ := h
    have a := bit_lt hl hp h1
    have b := bit_lt hr hp h2
    have := ihl hl
    have := ihr hr
    simp only [Tree.depth, Tree.bit]
    omega

theorem depth_orders (t : Tree) : t.depth ≤ t.leaves.length := by
  induction t with
  | leaf => simp [Tree.depth, Tree.leaves]
  | node h p k l r ihl ihr =>
    have := l.leaves_pos
    have := r.leaves_pos
    simp only [Tree.depth, Tree.leaves, List.length_append]
    omega

theorem way_depth {b : Slab} {t : Tree} (h : t.Rep b.nodes) {l : List Nat} {r : Nat} (hr : r = t.handle) (hw : WayDown b r l) :
    l.length ≤ t.depth := by
  induction hw generalizing t with
  | here => cases t <;> simp [Tree.depth]
  | left hn _ ih =>
    cases t with
    | leaf h' x => rw [hr, get_of_rep h] at hn; cases hn
    | node h' p' k' tl tr =>
      rw [hr, get_of_rep h] at hn
      obtain ⟨_, _, e, _⟩ := Node.inner.inj (Option.some.inj hn)
      have := ih h.2.1 e.symm
      simp only [List.length_cons, Tree.depth]; omega
  | right hn _ ih =>
    cases t with
    | leaf h' x => rw [hr, get_of_rep h] at hn; cases hn
    | node h' p' k' tl tr =>
      rw [hr, get_of_rep h] at hn
      obtain ⟨_, _, _, e⟩ := Node.inner.inj (Option.some.inj hn)
      have := ih h.2.2 e.symm
      simp only [List.length_cons, Tree.depth]; omega

/-- A loop that comes to an end comes to the same end with more rounds. -/
theorem minMax_more {b : Slab} {max : Bool} {m n h : Nat} (hmn : m ≤ n) (hm : b.minMaxFrom max m h ≠ .error .panic) :
    b.minMaxFrom max n h = b.minMaxFrom max m h := by
  induction m generalizing n h with
  | zero => exact absurd rfl hm
  | succ m ih =>
    obtain ⟨n, rfl⟩ : ∃ k, n = k + 1 := ⟨n - 1, by omega⟩
    unfold Slab.minMaxFrom at hm ⊢
    split <;> rename_i e <;> simp only [e] at hm ⊢
    exact ih (by omega) hm

theorem insert_more {b : Slab} {key m n h : Nat} (hmn : m ≤ n) (hm : b.insertDescend key m h ≠ .error .panic) :
    b.insertDescend key n h = b.insertDescend key m h := by
  induction m generalizing n h with
  | zero => exact absurd rfl hm
  | succ m ih =>
    obtain ⟨n, rfl⟩ : ∃ k, n = k + 1 := ⟨n - 1, by omega⟩
    unfold Slab.insertDescend at hm ⊢
    split <;> rename_i e <;> simp only [e] at hm ⊢
    split <;> rename_i g <;> simp only [g, if_true, if_false] at hm ⊢
    exact ih (by omega) hm

theorem remove_more {b : Slab} {key m n q h : Nat} {bit : Bool} (hmn : m ≤ n)
    (hm : b.removeDescend key m q h bit ≠ .error .panic) :
    b.removeDescend key n q h bit = b.removeDescend key m q h bit := by
  induction m generalizing n q h bit with
  | zero => exact absurd rfl hm
  | succ m ih =>
    obtain ⟨n, rfl⟩ : ∃ k, n = k + 1 := ⟨n - 1, by omega⟩
    unfold Slab.removeDescend at hm ⊢
    split <;> rename_i e <;> simp only [e] at hm ⊢
    exact ih (by omega) hm

theorem slab_shallow {b : Slab} (h : b.Inv) : Shallow b b.contents.length := by
  rcases h with ⟨F, h0, _⟩ | ⟨t, F, ht⟩
  · have : b.rootHandle = none := by unfold Slab.rootHandle; simp [h0]
    constructor <;> intros <;> simp_all
  · have hr : ∀ {r}, b.rootHandle = some r → r = t.handle := fun h => by
      rw [ht.rootHandle] at h; exact (Option.some.inj h).symm
    have d1 : t.depth ≤ 129 := by have := depth_bit ht.wf; omega
    have d2 := depth_orders t
    rw [ht.contents]
    have dm : ∀ {m}, min 129 t.leaves.length ≤ m → t.depth ≤ m := fun h => Nat.le_trans (Nat.le_min.2 ⟨d1, d2⟩) h
    refine ⟨?_, ?_, ?_, ?_⟩
    · intro r l h1 hw
      have := way_depth ht.rep (hr h1) hw
      omega
    · intro r m n mx h1 hm hn
      obtain rfl := hr h1
      have ok : ∀ {m}, t.depth ≤ m → b.minMaxFrom mx m t.handle ≠ .error .panic := fun hm => by
        cases mx
        · obtain ⟨_, _, _, _, _, e⟩ := minMax_min ht.rep hm; rw [e]; simp
        · obtain ⟨_, _, _, _, _, e⟩ := minMax_max ht.rep hm; rw [e]; simp
      have hd := ok (Nat.le_refl _)
      exact ⟨(minMax_more (dm hm) hd).trans (minMax_more (dm hn) hd).symm, ok (dm hm)⟩
    · intro r m n key hk h1 hm hn
      obtain rfl := hr h1
      have ok : ∀ {m}, t.depth ≤ m → b.insertDescend key m t.handle ≠ .error .panic := fun hm => by
        obtain ⟨_, _, _, _, _, e⟩ := insertDescend_spec ht.rep ht.wf hk hm; rw [e]; simp
      have hd := ok (Nat.le_refl _)
      exact ⟨(insert_more (dm hm) hd).trans (insert_more (dm hn) hd).symm, ok (dm hm)⟩
    · intro r q m n key bit h1 hm hn
      obtain rfl := hr h1
      have ok : ∀ {m}, t.depth ≤ m → b.removeDescend key m q t.handle bit ≠ .error .panic := fun hm => by
        rcases removeDescend_spec (key := key) ht.rep ht.wf hm ⟨bit, q, 0, 0, t⟩ with ⟨_, _, _, _, _, e⟩ | ⟨_, e⟩ <;>
          (rw [e]; simp)
      have hd := ok (Nat.le_refl _)
      exact ⟨(remove_more (dm hm) hd).trans (remove_more (dm hn) hd).symm, ok (dm hm)⟩

/-- C114. In every state a market can get into, both books are shallow. -/
theorem books_shallow {P : Params} {s : State conc} (h : Reach P s) (hq : s.seq ≤ W64) :
    Shallow s.bids (resting s .bid).length ∧ Shallow s.asks (resting s .ask).length := by
  have g := h.good hq
  exact ⟨slab_shallow g.rs.bids.1, slab_shallow g.rs.asks.1⟩

/-- C114, for a book on its own. -/
theorem book_shallow {n : Nat} {b : Slab} (h : Reachable n b) : Shallow b b.contents.length := slab_shallow h.inv.1

/-! ### Non-vacuity: the bound of 129 is met -/

/-- The way down that always keeps to the left. -/
def leftmost (b : Slab) : Nat → Nat → List Nat
  | 0, h => [h]
  | n + 1, h => match b.get h with
    | some (.inner _ _ c0 _) => h :: leftmost b n c0
    | _ => [h]

theorem leftmost_way (b : Slab) (n h : Nat) : WayDown b h (leftmost b n h) := by
  induction n generalizing h with
  | zero => exact .here h
  | succ n ih =>
    unfold leftmost
    split
    · exact .left (by assumption) (ih _)
    · exact .here h

/-- The keys 0, 1, 2, 4, ... up to the highest bit. -/
def deepKeys : List Nat := 0 :: (List.range 128).map (2 ^ ·)
def deepOps : List SlabOp :=
  deepKeys.map fun k =>
    .insert { key := k, quantity := 1, owner := 1, ownerSlot := 0, feeTier := .base, clientId := 0 }

def deep : Slab := match slabRun (Slab.fresh 257) deepOps with | .ok (s, _) => s | .error _ => Slab.fresh 0

theorem deep_demo : Reachable 257 deep ∧ deep.contents.length = 129 ∧
    ∃ r l, deep.rootHandle = some r ∧ WayDown deep r l ∧ l.length = 129 := by
  have hok : (slabRun (Slab.fresh 257) deepOps).isOk = true := by decide +kernel
  refine ⟨?_, by decide +kernel, deep.root, _, by decide +kernel, leftmost_way deep 200 deep.root, by decide +kernel⟩
  cases e : slabRun (Slab.fresh 257) deepOps with
  | error x => rw [e] at hok; cases hok
  | ok p =>
    refine ⟨deepOps, p.2, ?_, ?_⟩
    · intro op ho
      obtain ⟨k, hk, rfl⟩ := List.mem_map.1 ho
      exact (show ∀ k ∈ deepKeys, k < 2 ^ 128 by decide +kernel) k hk
    · have : deep = p.1 := by unfold deep; rw [e]
      rw [this]
      exact e

end Serum.Props
