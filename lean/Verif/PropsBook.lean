import Verif.SlabProofs

/-!
Properties C07–C10: one side of the order book.
The specification is an ideal map from 128-bit order id to order, `Nat → Option Leaf`.
-/

namespace Serum.Props

/-- Client operations on a book side. -/
inductive SlabOp where
  | insert (l : Leaf)
  | remove (key : Nat)
  | removeMin
  | removeMax
  | setMinQty (q : Nat)
  | setMaxQty (q : Nat)

/-- What the client sees. -/
inductive SlabOut where
  | inserted (replaced : Option Leaf)
  | outOfSpace
  | order (l : Option Leaf)
  deriving DecidableEq

/-- The implementation. -/
def slabStep (s : Slab) : SlabOp → Except Err (Slab × SlabOut)
  | .insert l => do
    match ← s.insertLeaf l with
    | (s', .ok (_, old)) => return (s', .inserted old)
    | (s', .error ()) => return (s', .outOfSpace)
  | .remove k => do let (s', o) ← s.removeByKey k; return (s', .order o)
  | .removeMin => do let (s', o) ← s.removeMin; return (s', .order o)
  | .removeMax => do let (s', o) ← s.removeMax; return (s', .order o)
  | .setMinQty q => do
    match ← s.findMin with
    | none => return (s, .order none)
    | some h => let l ← unwrap (s.leafAt h); return (← s.setQuantity h q, .order (some l))
  | .setMaxQty q => do
    match ← s.findMax with
    | none => return (s, .order none)
    | some h => let l ← unwrap (s.leafAt h); return (← s.setQuantity h q, .order (some l))

/-- Specification: the ideal map. -/
abbrev OrderMap := Nat → Option Leaf

def OrderMap.empty : OrderMap := fun _ => none
def OrderMap.put (m : OrderMap) (k : Nat) (v : Option Leaf) : OrderMap :=
  fun x => if x = k then v else m x
/-- `l` is the order with the least id. -/
def OrderMap.IsMin (m : OrderMap) (l : Leaf) : Prop :=
  m l.key = some l ∧ ∀ k, m k ≠ none → l.key ≤ k
/-- `l` is the order with the greatest id. -/
def OrderMap.IsMax (m : OrderMap) (l : Leaf) : Prop :=
  m l.key = some l ∧ ∀ k, m k ≠ none → k ≤ l.key

/-- Specification of one step of the ideal map. -/
inductive MapStep (m : OrderMap) : SlabOp → SlabOut → OrderMap → Prop
  | insert (l : Leaf) : MapStep m (.insert l) (.inserted (m l.key)) (m.put l.key (some l))
  | full (l : Leaf) (h : m l.key = none) : MapStep m (.insert l) .outOfSpace m
  | remove (k : Nat) : MapStep m (.remove k) (.order (m k)) (m.put k none)
  | removeMin (l : Leaf) (h : m.IsMin l) :
      MapStep m .removeMin (.order (some l)) (m.put l.key none)
  | removeMin0 (h : m = .empty) : MapStep m .removeMin (.order none) m
  | removeMax (l : Leaf) (h : m.IsMax l) :
      MapStep m .removeMax (.order (some l)) (m.put l.key none)
  | removeMax0 (h : m = .empty) : MapStep m .removeMax (.order none) m
  | setMin (l : Leaf) (q : Nat) (h : m.IsMin l) :
      MapStep m (.setMinQty q) (.order (some l)) (m.put l.key (some { l with quantity := q }))
  | setMin0 (q : Nat) (h : m = .empty) : MapStep m (.setMinQty q) (.order none) m
  | setMax (l : Leaf) (q : Nat) (h : m.IsMax l) :
      MapStep m (.setMaxQty q) (.order (some l)) (m.put l.key (some { l with quantity := q }))
  | setMax0 (q : Nat) (h : m = .empty) : MapStep m (.setMaxQty q) (.order none) m

/-- Specification of a run of the ideal map. -/
inductive MapRun : OrderMap → List SlabOp → List SlabOut → OrderMap → Prop
  | nil (m : OrderMap) : MapRun m [] [] m
  | cons {m m' m'' : OrderMap} {op ops out outs} (h : MapStep m op out m')
      (hs : MapRun m' ops outs m'') : MapRun m (op :: ops) (out :: outs) m''

/-- Run a list of operations on the implementation. -/
def slabRun : Slab → List SlabOp → Except Err (Slab × List SlabOut)
  | s, [] => .ok (s, [])
  | s, op :: ops => do
    let (s', o) ← slabStep s op
    let (s'', os) ← slabRun s' ops
    return (s'', o :: os)

/-- What the book side holds, as a map: search the traversal. -/
def held (s : Slab) : OrderMap := fun k => s.contents.find? (fun l => l.key == k)

/-- Order ids are `u128`. -/
def SlabOp.Valid : SlabOp → Prop
  | .insert l => l.key < 2 ^ 128
  | _ => True

/-! Helper lemmas relating sorted lists and maps. -/

abbrev lookup (xs : List Leaf) : OrderMap := fun k => xs.find? (fun l => l.key == k)

theorem lookup_append (L R : List Leaf) (k : Nat) :
    lookup (L ++ R) k = (lookup L k).or (lookup R k) := by
  simp [lookup, List.find?_append]

theorem lookup_eq_none {xs : List Leaf} {k : Nat} : lookup xs k = none ↔ ∀ l ∈ xs, l.key ≠ k := by
  simp [lookup, List.find?_eq_none]

theorem sorted_mid {L R : List Leaf} {l : Leaf}
    (hs : ((L ++ l :: R).map (·.key)).Pairwise (· < ·)) :
    (∀ x ∈ L, x.key < l.key) ∧ (∀ x ∈ R, l.key < x.key) := by
  rw [List.map_append, List.pairwise_append, List.map_cons, List.pairwise_cons] at hs
  exact ⟨fun x hx => hs.2.2 _ (List.mem_map_of_mem hx) _ (by simp),
    fun x hx => hs.2.1.1 _ (List.mem_map_of_mem hx)⟩

theorem lookup_mid {L R : List Leaf} {l : Leaf}
    (hs : ((L ++ l :: R).map (·.key)).Pairwise (· < ·)) (l' : Leaf) (hk : l'.key = l.key) :
    lookup (L ++ l' :: R) = OrderMap.put (lookup (L ++ l :: R)) l.key (some l') := by
  obtain ⟨h1, h2⟩ := sorted_mid hs
  funext k
  rw [OrderMap.put, lookup_append, lookup_append]
  by_cases h : k = l.key
  · subst h
    have : lookup L l.key = none := lookup_eq_none.2 fun x hx => by have := h1 x hx; omega
    rw [this, if_pos rfl]; simp [lookup, hk]
  · rw [if_neg h]
    have a : (l'.key == k) = false := by rw [hk]; simp; omega
    have b : (l.key == k) = false := by simp; omega
    simp [lookup, a, b]

theorem lookup_del {L R : List Leaf} {l : Leaf}
    (hs : ((L ++ l :: R).map (·.key)).Pairwise (· < ·)) :
    lookup (L ++ R) = OrderMap.put (lookup (L ++ l :: R)) l.key none := by
  obtain ⟨h1, h2⟩ := sorted_mid hs
  funext k
  rw [OrderMap.put, lookup_append, lookup_append]
  by_cases h : k = l.key
  · subst h
    have e1 : lookup L l.key = none := lookup_eq_none.2 fun x hx => by have := h1 x hx; omega
    have e2 : lookup R l.key = none := lookup_eq_none.2 fun x hx => by have := h2 x hx; omega
    rw [e1, e2, if_pos rfl]; rfl
  · rw [if_neg h]
    have b : (l.key == k) = false := by simp; omega
    simp [lookup, b]

theorem lookup_filter (xs : List Leaf) (k : Nat) :
    lookup (xs.filter (fun x => x.key != k)) = OrderMap.put (lookup xs) k none := by
  funext x
  rw [OrderMap.put]
  split
  · subst_vars
    rw [lookup_eq_none]; intro l hl; simp at hl; exact hl.2
  · rename_i hx
    simp only [lookup]
    rw [List.find?_filter]
    congr 1
    funext l
    by_cases hl : l.key = x
    · have : l.key ≠ k := by omega
      simp [hl]; omega
    · simp [hl]

theorem lookup_insKey {xs : List Leaf} (l : Leaf)
    (hs : (xs.map (·.key)).Pairwise (· < ·)) :
    lookup (insKey l xs) = OrderMap.put (lookup xs) l.key (some l) := by
  induction xs with
  | nil =>
    funext k
    simp only [insKey, OrderMap.put, lookup, List.find?_cons, List.find?_nil]
    by_cases h : k = l.key
    · subst h; simp
    · have : (l.key == k) = false := by simp; omega
      simp [this, h]
  | cons x xs ih =>
    rw [List.map_cons, List.pairwise_cons] at hs
    have ih := ih hs.2
    funext k
    have ihk := congrFun ih k
    simp only [OrderMap.put, lookup] at ihk ⊢
    unfold insKey
    by_cases h : k = l.key
    · subst h
      rw [if_pos rfl] at ihk ⊢
      split
      · simp
      · split
        · simp
        · have : (x.key == l.key) = false := by simp; omega
          rw [List.find?_cons, this]; exact ihk
    · rw [if_neg h] at ihk ⊢
      have hl : (l.key == k) = false := by simp; omega
      split
      · rw [List.find?_cons, hl]
      · split
        · rename_i e
          have hx : (x.key == k) = false := by simp; omega
          rw [List.find?_cons, hl, List.find?_cons, hx]
        · rw [List.find?_cons, List.find?_cons, ihk]

theorem mem_of_lookup {xs : List Leaf} {k : Nat} (h : lookup xs k ≠ none) :
    ∃ l ∈ xs, l.key = k := by
  rw [ne_eq, lookup_eq_none] at h
  simpa using h

theorem isMin_head {l : Leaf} {R : List Leaf}
    (hs : ((l :: R).map (·.key)).Pairwise (· < ·)) : OrderMap.IsMin (lookup (l :: R)) l := by
  refine ⟨by simp [lookup], fun k hk => ?_⟩
  obtain ⟨x, hx, rfl⟩ := mem_of_lookup hk
  have := (sorted_mid (L := []) hs).2
  simp only [List.mem_cons] at hx
  rcases hx with rfl | hx
  · exact Nat.le_refl _
  · exact Nat.le_of_lt (this x hx)

theorem isMax_last {l : Leaf} {L : List Leaf}
    (hs : ((L ++ [l]).map (·.key)).Pairwise (· < ·)) : OrderMap.IsMax (lookup (L ++ [l])) l := by
  have h1 := (sorted_mid hs).1
  refine ⟨?_, fun k hk => ?_⟩
  · rw [lookup_append]
    have : lookup L l.key = none := lookup_eq_none.2 fun x hx => by have := h1 x hx; omega
    rw [this]; simp [lookup]
  · obtain ⟨x, hx, rfl⟩ := mem_of_lookup hk
    simp only [List.mem_append, List.mem_singleton] at hx
    rcases hx with hx | rfl
    · exact Nat.le_of_lt (h1 x hx)
    · exact Nat.le_refl _

theorem held_eq (s : Slab) : held s = lookup s.contents := rfl

theorem slabStep_refines {s : Slab} (hs : s.Inv) (op : SlabOp) (hv : op.Valid) :
    ∃ s' out, slabStep s op = .ok (s', out) ∧ s'.Inv ∧ s'.nodes.length = s.nodes.length ∧
      MapStep (held s) op out (held s') := by
  have hso := hs.sorted
  cases op with
  | insert l =>
    have h := insertLeaf_spec hs (leaf := l) hv
    split at h
    · obtain ⟨s', h', e, hst⟩ := h
      refine ⟨s', .inserted (held s l.key), ?_, hst.inv, hst.nodes, ?_⟩
      · simp only [slabStep, bind, Except.bind, e, pure, Except.pure]; rfl
      · have := MapStep.insert (m := held s) l
        rwa [show held s' = (held s).put l.key (some l) by
          rw [held_eq, hst.contents, lookup_insKey l hso]; rfl]
    · rename_i hc
      obtain ⟨s', e, hst⟩ := h
      refine ⟨s', .outOfSpace, ?_, hst.inv, hst.nodes, ?_⟩
      · simp only [slabStep, bind, Except.bind, e, pure, Except.pure]
      · rw [held_eq s', hst.contents]
        refine MapStep.full l ?_
        rw [held_eq, lookup_eq_none]
        intro x hx e
        exact hc (.inl (e ▸ List.mem_map_of_mem hx))
  | remove k =>
    obtain ⟨s', e, hst⟩ := removeByKey_spec hs k
    refine ⟨s', .order (held s k), ?_, hst.inv, hst.nodes, ?_⟩
    · simp only [slabStep, bind, Except.bind, e, pure, Except.pure]; rfl
    · have := MapStep.remove (m := held s) k
      rwa [show held s' = (held s).put k none by
        rw [held_eq, hst.contents, lookup_filter]; rfl]
  | removeMin =>
    obtain ⟨s', e, hst⟩ := removeMin_spec hs
    refine ⟨s', .order s.contents.head?, ?_, hst.inv, hst.nodes, ?_⟩
    · simp only [slabStep, bind, Except.bind, e, pure, Except.pure]
    · cases hc : s.contents with
      | nil =>
        rw [show held s' = held s by rw [held_eq, held_eq, hst.contents, hc]; rfl]
        exact MapStep.removeMin0 (by rw [held_eq, hc]; rfl)
      | cons l R =>
        rw [hc] at hso
        have : held s' = (held s).put l.key none := by
          rw [held_eq, hst.contents, hc, held_eq, hc]; exact lookup_del (L := []) hso
        rw [this]
        exact MapStep.removeMin l (by rw [held_eq, hc]; exact isMin_head hso)
  | removeMax =>
    obtain ⟨s', e, hst⟩ := removeMax_spec hs
    refine ⟨s', .order s.contents.getLast?, ?_, hst.inv, hst.nodes, ?_⟩
    · simp only [slabStep, bind, Except.bind, e, pure, Except.pure]
    · rcases List.eq_nil_or_concat s.contents with hc | ⟨L, l, hc⟩
      · rw [show held s' = held s by rw [held_eq, held_eq, hst.contents, hc]; rfl, hc]
        exact MapStep.removeMax0 (by rw [held_eq, hc]; rfl)
      · rw [List.concat_eq_append] at hc
        rw [hc] at hso
        have : held s' = (held s).put l.key none := by
          rw [held_eq, hst.contents, hc, held_eq, hc]
          have := lookup_del (R := []) hso
          simpa using this
        rw [this, hc]
        simp only [List.getLast?_append, List.getLast?_singleton]
        exact MapStep.removeMax l (by rw [held_eq, hc]; exact isMax_last hso)
  | setMinQty q =>
    rcases findMin_spec hs with ⟨hc, e⟩ | ⟨h, l, R, e, hl⟩
    · refine ⟨s, .order none, ?_, hs, rfl, MapStep.setMin0 q (by rw [held_eq, hc]; rfl)⟩
      simp only [slabStep, bind, Except.bind, e, pure, Except.pure]
    · obtain ⟨s', e', hst⟩ := hl.setQ q
      refine ⟨s', .order (some l), ?_, hst.inv, hst.nodes, ?_⟩
      · simp only [slabStep, bind, Except.bind, e, pure, Except.pure, hl.leafAt, unwrap, e']
      · rw [hl.contents] at hso
        have : held s' = (held s).put l.key (some { l with quantity := q }) := by
          rw [held_eq, hst.contents, held_eq, hl.contents]; exact lookup_mid (L := []) hso _ rfl
        rw [this]
        exact MapStep.setMin l q (by rw [held_eq, hl.contents]; exact isMin_head hso)
  | setMaxQty q =>
    rcases findMax_spec hs with ⟨hc, e⟩ | ⟨h, l, L, e, hl⟩
    · refine ⟨s, .order none, ?_, hs, rfl, MapStep.setMax0 q (by rw [held_eq, hc]; rfl)⟩
      simp only [slabStep, bind, Except.bind, e, pure, Except.pure]
    · obtain ⟨s', e', hst⟩ := hl.setQ q
      refine ⟨s', .order (some l), ?_, hst.inv, hst.nodes, ?_⟩
      · simp only [slabStep, bind, Except.bind, e, pure, Except.pure, hl.leafAt, unwrap, e']
      · rw [hl.contents] at hso
        have : held s' = (held s).put l.key (some { l with quantity := q }) := by
          rw [held_eq, hst.contents, held_eq, hl.contents]; exact lookup_mid hso _ rfl
        rw [this]
        exact MapStep.setMax l q (by rw [held_eq, hl.contents]; exact isMax_last hso)

theorem slabRun_refines {s : Slab} (hs : s.Inv) (ops : List SlabOp) (hv : ∀ op ∈ ops, op.Valid) :
    ∃ s' outs, slabRun s ops = .ok (s', outs) ∧ s'.Inv ∧ s'.nodes.length = s.nodes.length ∧
      MapRun (held s) ops outs (held s') := by
  induction ops generalizing s with
  | nil => exact ⟨s, [], rfl, hs, rfl, .nil _⟩
  | cons op ops ih =>
    obtain ⟨s1, o, e1, h1, n1, m1⟩ := slabStep_refines hs op (hv op (by simp))
    obtain ⟨s2, os, e2, h2, n2, m2⟩ := ih h1 fun op h => hv op (by simp [h])
    refine ⟨s2, o :: os, ?_, h2, n2.trans n1, .cons m1 m2⟩
    simp only [slabRun, bind, Except.bind, e1, e2, pure, Except.pure]

/-- C07. A book side of any size, starting empty and driven by any operations, never fails
internally and behaves exactly like the ideal map from order id to order. -/
theorem book_side_is_map (n : Nat) (ops : List SlabOp) (hv : ∀ op ∈ ops, op.Valid) :
    ∃ s outs, slabRun (Slab.fresh n) ops = .ok (s, outs) ∧ MapRun .empty ops outs (held s) := by
  obtain ⟨s, outs, e, _, _, h⟩ := slabRun_refines (fresh_inv n) ops hv
  exact ⟨s, outs, e, h⟩

/-- Reachable book sides with `n` nodes. -/
def Reachable (n : Nat) (s : Slab) : Prop :=
  ∃ ops outs, (∀ op ∈ ops, SlabOp.Valid op) ∧ slabRun (Slab.fresh n) ops = .ok (s, outs)

theorem Reachable.inv {n : Nat} {s : Slab} (h : Reachable n s) : s.Inv ∧ s.nodes.length = n := by
  obtain ⟨ops, outs, hv, e⟩ := h
  obtain ⟨s', outs', e', hi, hn, _⟩ := slabRun_refines (fresh_inv n) ops hv
  rw [e] at e'
  cases e'
  exact ⟨hi, by rw [hn]; simp [Slab.fresh]⟩

/-- C08. In every reachable state the minimum (maximum) lookup finds the order with the least
(greatest) id, and nothing exactly when the side is empty. -/
theorem best_order_lookup (n : Nat) (s : Slab) (hr : Reachable n s) :
    (held s = .empty ∧ s.findMin = .ok none ∧ s.findMax = .ok none) ∨
    ∃ hmin hmax lmin lmax, s.findMin = .ok (some hmin) ∧ s.leafAt hmin = some lmin ∧
      (held s).IsMin lmin ∧ s.findMax = .ok (some hmax) ∧ s.leafAt hmax = some lmax ∧
      (held s).IsMax lmax := by
  have hs := hr.inv.1
  have hso := hs.sorted
  rcases findMin_spec hs with ⟨hc, e⟩ | ⟨h, l, R, e, hl⟩ <;>
    rcases findMax_spec hs with ⟨hc', e'⟩ | ⟨h', l', L, e', hl'⟩
  · left; exact ⟨by rw [held_eq, hc]; rfl, e, e'⟩
  · have := hl'.contents; rw [hc] at this; simp at this
  · have := hl.contents; rw [hc'] at this; simp at this
  · right
    refine ⟨h, h', l, l', e, hl.leafAt, ?_, e', hl'.leafAt, ?_⟩
    · rw [held_eq, hl.contents]; rw [hl.contents] at hso; exact isMin_head hso
    · rw [held_eq, hl'.contents]; rw [hl'.contents] at hso; exact isMax_last hso

/-- C09. In every reachable state of a side with `n` nodes, a new order is accepted whenever fewer
than `(n+1)/2` orders rest; a refused insertion leaves the orders unchanged; and the size check made
at market creation guarantees room for at least 101 orders. (`n ≤ 2^32 - 1`: an account is at most
10 MiB, a node 72 bytes.) -/
theorem book_capacity_never_leaks (n : Nat) (hn : n ≤ u32Max) (s : Slab) (hr : Reachable n s)
    (l : Leaf) (hk : l.key < 2 ^ 128) :
    (s.contents.length < (n + 1) / 2 → ∃ s' old, slabStep s (.insert l) = .ok (s', .inserted old)) ∧
    (∀ s', slabStep s (.insert l) = .ok (s', .outOfSpace) →
      s'.contents = s.contents ∧ (n + 1) / 2 ≤ s.contents.length) ∧
    (Slab.assertMinimumCapacity s.nodes.length 100 = .ok () → 101 ≤ (n + 1) / 2) := by
  obtain ⟨hs, hlen⟩ := hr.inv
  have hcap : s.cap = n := by unfold Slab.cap; rw [hlen]; omega
  have h := insertLeaf_spec hs (leaf := l) hk
  refine ⟨?_, ?_, ?_⟩
  · intro hlt
    rw [if_pos (.inr (by omega))] at h
    obtain ⟨s', h', e, _⟩ := h
    exact ⟨s', _, by simp only [slabStep, bind, Except.bind, e, pure, Except.pure]; rfl⟩
  · intro s' e
    split at h
    · obtain ⟨s1, h', e1, _⟩ := h
      simp only [slabStep, bind, Except.bind, e1, pure, Except.pure] at e
      cases e
    · rename_i hc
      obtain ⟨s1, e1, hst⟩ := h
      simp only [slabStep, bind, Except.bind, e1, pure, Except.pure] at e
      cases e
      have hc2 : ¬ 2 * s.contents.length + 1 ≤ s.cap := fun h => hc (.inr h)
      exact ⟨hst.contents, by omega⟩
  · unfold Slab.assertMinimumCapacity
    split
    · intro h; cases h
    · intro _; omega

/-- C10. Scanning for an owner's orders consumes at most its budget, returns distinct ids of that
owner's resting orders, and with a budget covering the whole tree (`2·orders - 1` nodes) all of
them. -/
theorem owner_scan (n : Nat) (s : Slab) (hr : Reachable n s) (limit owner : Nat) :
    let r := s.findBy limit (fun l => l.owner == owner)
    r.2 ≤ limit ∧ r.1.Nodup ∧ (∀ k ∈ r.1, ∃ l, held s k = some l ∧ l.owner = owner) ∧
    (2 * s.contents.length ≤ limit + 1 →
      ∀ k l, held s k = some l → l.owner = owner → k ∈ r.1) := by
  obtain ⟨hs, hlen⟩ := hr.inv
  obtain ⟨h1, ⟨rest, h2⟩, h3⟩ := findBy_spec hs limit (fun l => l.owner == owner)
  have hso := hs.sorted
  have hnd : ((s.contents.reverse.filter (fun l => l.owner == owner)).map (·.key)).Nodup := by
    have : (s.contents.reverse.map (·.key)).Nodup := by
      rw [List.map_reverse, List.Nodup, List.pairwise_reverse]
      exact hso.imp (fun h => by omega)
    exact this.sublist (List.filter_sublist.map _)
  have hmem : ∀ l ∈ s.contents, held s l.key = some l := by
    intro l hl
    obtain ⟨L, R, e⟩ := List.append_of_mem hl
    rw [e] at hso
    rw [held_eq, e]; exact find_key hso
  refine ⟨h1, ?_, ?_, ?_⟩
  · rw [h2] at hnd
    exact (List.nodup_append.1 hnd).1
  · intro k hk
    have : k ∈ (s.contents.reverse.filter (fun l => l.owner == owner)).map (·.key) := by
      rw [h2]; simp [hk]
    simp only [List.mem_map, List.mem_filter, List.mem_reverse, beq_iff_eq] at this
    obtain ⟨l, ⟨hl, ho⟩, rfl⟩ := this
    exact ⟨l, hmem l hl, ho⟩
  · intro hlim k l hk ho
    rw [h3 hlim]
    have hl : l ∈ s.contents := List.mem_of_find?_eq_some hk
    have hkey : l.key = k := by have := List.find?_some hk; simpa using this
    simp only [List.mem_map, List.mem_filter, List.mem_reverse, beq_iff_eq]
    exact ⟨l, ⟨hl, ho⟩, hkey⟩

/-! Non-vacuity: a five-node side after inserting, replacing and removing. -/

private def mk (k q : Nat) (owner : Nat := 1) : Leaf :=
  { ownerSlot := 0, feeTier := .base, key := k, owner, quantity := q, clientId := 0 }

private def demoOps : List SlabOp :=
  [.insert (mk 5 10), .insert (mk 12 20 2), .insert (mk 4 30), .insert (mk 9 1), .insert (mk 5 11),
   .setMinQty 7, .removeMax, .insert (mk 9 40), .remove 5]

private def demo : Slab × List SlabOut :=
  match slabRun (Slab.fresh 5) demoOps with | .ok r => r | .error _ => (Slab.fresh 0, [])

example : demo.2 = [.inserted none, .inserted none, .inserted none, .outOfSpace,
    .inserted (some (mk 5 10)), .order (some (mk 4 30)), .order (some (mk 12 20 2)), .inserted none,
    .order (some (mk 5 11))] := by decide

example : demo.1.contents = [mk 4 7, mk 9 40] := by decide

example : Reachable 5 demo.1 :=
  ⟨demoOps, demo.2, by simp [demoOps, SlabOp.Valid, mk], by rfl⟩

example : (demo.1.findBy 3 (fun l => l.owner == 1)).1 = [9, 4] := by decide

end Serum.Props
