import Verif.Sim
import Verif.SlabProofs

/-
Plain-list implementation of book sides and event queue, and the proof that the array-level
structures reproduce it step by step.
-/

namespace Serum

/-- A book side as the list of its orders in ascending id order, and the number of slab nodes. -/
structure LBook where
  items : List Leaf
  cap : Nat
  deriving DecidableEq, Repr

/-- A queue as the list of its items, oldest first, and its capacity. -/
structure LQ where
  items : List Event
  cap : Nat
  deriving DecidableEq, Repr

/-- Nodes visited by the search of `find_by`, read off the sorted orders alone: the crit-bit tree of
a key set is determined by the keys. `none` is an inner node. -/
def visits : Nat → List Leaf → List (Option Leaf)
  | 0, L => L.map some
  | n + 1, L =>
    let A := L.filter (fun l => !critBit (127 - n) l.key)
    let B := L.filter (fun l => critBit (127 - n) l.key)
    if A = [] then visits n B
    else if B = [] then visits n A
    else none :: (visits n B ++ visits n A)

/-- Change the quantity of the last order. -/
def setLast (q : Nat) : List Leaf → Option (List Leaf)
  | [] => none
  | [l] => some [{ l with quantity := q }]
  | l :: ls => (setLast q ls).map (l :: ·)

/-- Change the quantity of the first order. -/
def setFirst (q : Nat) : List Leaf → Option (List Leaf)
  | [] => none
  | l :: ls => some ({ l with quantity := q } :: ls)

/-- List implementation. -/
@[reducible] def lst : Impl where
  Book := LBook
  Q := LQ
  best
    | .bid, b => .ok b.items.getLast?
    | .ask, b => .ok b.items.head?
  setBest
    | .bid, b, q => (unwrap (setLast q b.items)).map (⟨·, b.cap⟩)
    | .ask, b, q => (unwrap (setFirst q b.items)).map (⟨·, b.cap⟩)
  remove b k := .ok (⟨b.items.filter (fun x => x.key != k), b.cap⟩, b.items.find? (fun x => x.key == k))
  insert b l :=
    if l.key ∈ b.items.map (·.key) ∨ 2 * b.items.length + 1 ≤ b.cap then
      .ok (⟨insKey l b.items, b.cap⟩, true)
    else .ok (b, false)
  evict
    | .bid, b => .ok (⟨b.items.tail, b.cap⟩, b.items.head?)
    | .ask, b => .ok (⟨b.items.dropLast, b.cap⟩, b.items.getLast?)
  findBy b limit pred :=
    let v := visits 128 b.items
    ((((v.take limit).filterMap id).filter pred).map (·.key), limit - v.length)
  push q e := if q.items.length < q.cap then some ⟨q.items ++ [e], q.cap⟩ else none
  peek q := q.items.head?
  pop q := match q.items with
    | [] => none
    | _ :: xs => some ⟨xs, q.cap⟩

theorem setLast_append (q : Nat) (L : List Leaf) (l : Leaf) :
    setLast q (L ++ [l]) = some (L ++ [{ l with quantity := q }]) := by
  induction L with
  | nil => rfl
  | cons x xs ih =>
    cases xs with
    | nil => rfl
    | cons y ys => simp only [List.cons_append] at ih ⊢; unfold setLast; rw [ih]; rfl

/-- The search order of a crit-bit tree depends only on its leaves. -/
theorem visits_eq (n : Nat) (hn : n ≤ 128) (t : Tree) (hw : t.WF)
    (hp : ∀ x ∈ t.keys, ∀ y ∈ t.keys, pre (128 - n) x = pre (128 - n) y) :
    visits n t.leaves = t.visit := by
  have hfA : ∀ (p : Nat) (L : List Leaf), (∀ x ∈ L.map (·.key), critBit p x = false) →
      L.filter (fun l => !critBit p l.key) = L ∧ L.filter (fun l => critBit p l.key) = [] := by
    intro p L h
    constructor
    · rw [List.filter_eq_self]; intro l hl; simp [h l.key (List.mem_map_of_mem hl)]
    · rw [List.filter_eq_nil_iff]; intro l hl; simp [h l.key (List.mem_map_of_mem hl)]
  have hfB : ∀ (p : Nat) (L : List Leaf), (∀ x ∈ L.map (·.key), critBit p x = true) →
      L.filter (fun l => !critBit p l.key) = [] ∧ L.filter (fun l => critBit p l.key) = L := by
    intro p L h
    constructor
    · rw [List.filter_eq_nil_iff]; intro l hl; simp [h l.key (List.mem_map_of_mem hl)]
    · rw [List.filter_eq_self]; intro l hl; simp [h l.key (List.mem_map_of_mem hl)]
  induction n generalizing t with
  | zero =>
    cases t with
    | leaf h l => rfl
    | node h p k l r =>
      exfalso
      obtain ⟨hp', _, h1, h2, _, _⟩ := hw
      obtain ⟨a, ha⟩ := List.exists_mem_of_ne_nil _ l.leaves_ne_nil
      obtain ⟨b, hb⟩ := List.exists_mem_of_ne_nil _ r.leaves_ne_nil
      have ha : a.key ∈ l.keys := List.mem_map_of_mem ha
      have hb : b.key ∈ r.keys := List.mem_map_of_mem hb
      have e := critBit_of_pre (p := p) (q := 128) (by omega) (by omega)
        (hp a.key (by rw [Tree.keys_node]; simp [ha]) b.key (by rw [Tree.keys_node]; simp [hb]))
      rw [(h1 _ ha).2, (h2 _ hb).2] at e
      cases e
  | succ n ih =>
    have hq : 127 - n = 128 - (n + 1) := by omega
    -- every key has the same next bit: one side is empty
    have same : ∀ c : Bool, (∀ x ∈ t.keys, critBit (127 - n) x = c) →
        visits (n + 1) t.leaves = t.visit := by
      intro c hc
      have ih' := ih (by omega) t hw (by
        intro x hx y hy
        have := hp x hx y hy
        rw [show 128 - n = (127 - n) + 1 by omega, pre_succ (by omega), pre_succ (by omega),
          ← critBit_eq (by omega), ← critBit_eq (by omega), hc x hx, hc y hy]
        rw [← hq] at this
        rw [this])
      unfold visits
      have hne := t.leaves_ne_nil
      cases c with
      | false =>
        obtain ⟨a, b⟩ := hfA _ _ hc
        simp only [a, b, hne, if_false, if_true]; exact ih'
      | true =>
        obtain ⟨a, b⟩ := hfB _ _ hc
        simp only [a, b, if_true]; exact ih'
    cases t with
    | leaf h l =>
      refine same (critBit (127 - n) l.key) ?_
      intro x hx
      simp [Tree.keys, Tree.leaves] at hx
      rw [hx]
    | node h p k l r =>
      have hw0 := hw
      obtain ⟨hp', _, h1, h2, hl, hr⟩ := hw
      obtain ⟨a, ha⟩ := List.exists_mem_of_ne_nil _ l.leaves_ne_nil
      obtain ⟨b, hb⟩ := List.exists_mem_of_ne_nil _ r.leaves_ne_nil
      have ha : a.key ∈ l.keys := List.mem_map_of_mem ha
      have hb : b.key ∈ r.keys := List.mem_map_of_mem hb
      have hge : 127 - n ≤ p := by
        apply Classical.byContradiction
        intro hlt
        have e := critBit_of_pre (p := p) (q := 128 - (n + 1)) (by omega) (by omega)
          (hp a.key (by rw [Tree.keys_node]; simp [ha]) b.key (by rw [Tree.keys_node]; simp [hb]))
        rw [(h1 _ ha).2, (h2 _ hb).2] at e
        cases e
      by_cases hpe : p = 127 - n
      · subst hpe
        unfold visits
        obtain ⟨a1, b1⟩ := hfA (127 - n) l.leaves (fun x hx => (h1 x hx).2)
        obtain ⟨a2, b2⟩ := hfB (127 - n) r.leaves (fun x hx => (h2 x hx).2)
        simp only [Tree.leaves, List.filter_append, a1, a2, b1, b2, List.append_nil, List.nil_append,
          l.leaves_ne_nil, r.leaves_ne_nil, if_false, Tree.visit]
        have pl : ∀ (c : Bool) (t : Tree), (∀ x ∈ t.keys, pre (127 - n) x = pre (127 - n) k ∧
            critBit (127 - n) x = c) → ∀ x ∈ t.keys, ∀ y ∈ t.keys, pre (128 - n) x = pre (128 - n) y := by
          intro c t ht x hx y hy
          rw [show 128 - n = (127 - n) + 1 by omega, pre_succ (by omega), pre_succ (by omega),
            ← critBit_eq (by omega), ← critBit_eq (by omega), (ht x hx).2, (ht y hy).2, (ht x hx).1, (ht y hy).1]
        rw [ih (by omega) r hr (pl true r h2), ih (by omega) l hl (pl false l h1)]
      · refine same (critBit (127 - n) k) ?_
        intro x hx
        have : pre p x = pre p k := by
          rw [Tree.keys_node, List.mem_append] at hx
          rcases hx with hx | hx
          · exact (h1 x hx).1
          · exact (h2 x hx).1
        exact critBit_of_pre (by omega) (by omega) this

/-- `find_by` depends only on the sorted orders. -/
theorem findBy_eq {s : Slab} (hs : s.Inv) (limit : Nat) (pred : Leaf → Bool) :
    s.findBy limit pred = (((((visits 128 s.contents).take limit).filterMap id).filter pred).map (·.key),
      limit - (visits 128 s.contents).length) := by
  rcases hs with ⟨F, h0, hal⟩ | ⟨t, F, hT⟩
  · have hc0 := Slab.contents_empty h0
    have hr0 : s.rootHandle = none := by unfold Slab.rootHandle; simp [h0]
    have : ∀ n, visits n [] = [] := by
      intro n
      induction n with
      | zero => rfl
      | succ n ih => unfold visits; simp [ih]
    simp [Slab.findBy, hr0, hc0, this]
  · unfold Slab.findBy
    rw [hT.rootHandle]
    have := findByLoop_eq (s := s) pred limit [t] (by simpa using hT.rep)
    simp only [List.map_cons, List.map_nil, List.flatMap_cons, List.flatMap_nil, List.append_nil] at this
    have hv := visits_eq 128 (by omega) t hT.wf (by
      intro x hx y hy
      have hx := hT.wf.key_lt x hx
      have hy := hT.wf.key_lt y hy
      unfold pre
      rw [Nat.div_eq_of_lt hx, Nat.div_eq_of_lt hy])
    simp only [this, hT.contents, hv]

/-- The list view of a slab. -/
def Slab.abs (s : Slab) : LBook := ⟨s.contents, s.cap⟩

/-- The list view of a queue. -/
def Queue.abs (q : Queue Event) : LQ := ⟨q.toList, q.buf.length⟩

theorem SlabStep.rel {s s' : Slab} {cs : List Leaf} (h : SlabStep s s' cs) :
    s'.Inv ∧ (⟨cs, s.cap⟩ : LBook) = s'.abs := by
  refine ⟨h.inv, ?_⟩
  unfold Slab.abs
  rw [h.contents, h.cap]

/-- The array-level structures reproduce the list implementation. -/
def concLst : Refines conc lst where
  RB s b := s.Inv ∧ b = s.abs
  RQ q r := q.WF ∧ r = q.abs
  best {s c} side := by
    rintro ⟨hs, rfl⟩
    cases side with
    | bid =>
      simp only [Slab.bbo, Slab.abs]
      rcases findMax_spec hs with ⟨h0, e⟩ | ⟨h, l, L, e, hl⟩
      · rw [e, h0]; rfl
      · rw [e, hl.contents]
        simp [bind, Except.bind, hl.leafAt, unwrap, Sim, pure, Except.pure]
    | ask =>
      simp only [Slab.bbo, Slab.abs]
      rcases findMin_spec hs with ⟨h0, e⟩ | ⟨h, l, L, e, hl⟩
      · rw [e, h0]; rfl
      · rw [e, hl.contents]
        simp [bind, Except.bind, hl.leafAt, unwrap, Sim, pure, Except.pure]
  setBest {s c} side q := by
    rintro ⟨hs, rfl⟩
    cases side with
    | bid =>
      simp only [Slab.bbo, Slab.abs]
      rcases findMax_spec hs with ⟨h0, e⟩ | ⟨h, l, L, e, hl⟩
      · rw [e, h0]; rfl
      · obtain ⟨s', e', hst⟩ := hl.setQ q
        rw [e, hl.contents, setLast_append]
        simp only [bind, Except.bind, unwrap, e', Except.map]
        exact hst.rel
    | ask =>
      simp only [Slab.bbo, Slab.abs]
      rcases findMin_spec hs with ⟨h0, e⟩ | ⟨h, l, L, e, hl⟩
      · rw [e, h0]; rfl
      · obtain ⟨s', e', hst⟩ := hl.setQ q
        rw [e, hl.contents]
        simp only [bind, Except.bind, unwrap, e', Except.map, List.nil_append, setFirst]
        exact hst.rel
  remove {s c} k := by
    rintro ⟨hs, rfl⟩
    obtain ⟨s', e, hst⟩ := removeByKey_spec hs k
    simp only [Slab.abs, e]
    exact ⟨hst.rel, rfl⟩
  insert {s c} l hk := by
    rintro ⟨hs, rfl⟩
    have := insertLeaf_spec hs hk
    simp only
    split at this
    · rename_i hc
      obtain ⟨s', h, e, hst⟩ := this
      rw [e]
      refine (if_pos (c := _ ∨ _) hc).symm ▸ ?_
      exact ⟨hst.rel, rfl⟩
    · rename_i hc
      obtain ⟨s', e, hst⟩ := this
      rw [e]
      refine (if_neg (c := _ ∨ _) hc).symm ▸ ?_
      exact ⟨hst.rel, rfl⟩
  evict {s c} side := by
    rintro ⟨hs, rfl⟩
    cases side with
    | bid =>
      obtain ⟨s', e, hst⟩ := removeMin_spec hs
      simp only [Slab.abs, e]
      exact ⟨hst.rel, rfl⟩
    | ask =>
      obtain ⟨s', e, hst⟩ := removeMax_spec hs
      simp only [Slab.abs, e]
      exact ⟨hst.rel, rfl⟩
  findBy {s c} n p := by
    rintro ⟨hs, rfl⟩
    exact findBy_eq hs n p
  push {q r} e := by
    rintro ⟨hq, rfl⟩
    have hlen := Queue.length_toList hq
    have hi : q.abs.items = Queue.toList q := rfl
    have hcp : q.abs.cap = q.buf.length := rfl
    have hcount := hq.count
    simp only
    cases hp : q.pushBack e with
    | none =>
      have := (Queue.pushBack_none hq).1 hp
      rw [if_neg (by rw [hi, hcp]; omega)]; trivial
    | some q' =>
      have hn : ¬ q.toList.length = q.buf.length := fun h => by
        rw [(Queue.pushBack_none hq (x := e)).2 h] at hp; cases hp
      obtain ⟨h1, h2, h3, _⟩ := Queue.pushBack_spec hq hp
      rw [if_pos (by rw [hi, hcp]; omega)]
      refine ⟨h1, ?_⟩
      rw [hi, hcp, Queue.abs, h2, h3]
  peek {q r} := by
    rintro ⟨hq, rfl⟩
    exact Queue.peekFront_eq hq
  pop {q r} := by
    rintro - ⟨hq, rfl⟩
    simp only [Queue.abs]
    have := Queue.popFront_spec hq
    split at this
    · rename_i h; rw [this, h]; trivial
    · rename_i x xs h
      obtain ⟨q', e, hw, ht, hb, _⟩ := this
      rw [e, h]
      exact ⟨hw, by show LQ.mk _ _ = LQ.mk _ _; rw [ht, hb]⟩

end Serum
