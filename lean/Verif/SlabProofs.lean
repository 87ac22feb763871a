import Verif.SlabTree

/-!
Correctness of every slab operation against the sorted list of orders it holds.
-/

namespace Serum

/-! ### Contexts, continued -/
namespace Ctx

theorem plug_append (c1 c2 : Ctx) (t : Tree) : plug (c1 ++ c2) t = plug c2 (plug c1 t) := by
  induction c1 generalizing t with
  | nil => rfl
  | cons f c ih => exact ih _

theorem ok_append (c1 c2 : Ctx) (x : Nat) : ok (c1 ++ c2) x ↔ ok c1 x ∧ ok c2 x := by
  simp only [ok, List.mem_append]
  constructor
  · intro h; exact ⟨fun f hf => h f (.inl hf), fun f hf => h f (.inr hf)⟩
  · rintro ⟨h1, h2⟩ f (hf | hf)
    · exact h1 f hf
    · exact h2 f hf

theorem lefts_append (c1 c2 : Ctx) : lefts (c1 ++ c2) = lefts c2 ++ lefts c1 := by
  induction c1 with
  | nil => simp [lefts]
  | cons f c ih => simp [lefts, ih]

theorem rights_append (c1 c2 : Ctx) : rights (c1 ++ c2) = rights c1 ++ rights c2 := by
  induction c1 with
  | nil => simp [rights]
  | cons f c ih => simp [rights, ih]

end Ctx

open Ctx

theorem minMax_min {s : Slab} {t : Tree} {fuel : Nat} (hr : t.Rep s.nodes) (hf : t.depth ≤ fuel) :
    ∃ c h l, t = plug c (.leaf h l) ∧ lefts c = [] ∧ s.minMaxFrom false fuel t.handle = .ok h := by
  induction t generalizing fuel with
  | leaf h l =>
    obtain ⟨fuel, rfl⟩ : ∃ n, fuel = n + 1 := ⟨fuel - 1, by simp [Tree.depth] at hf; omega⟩
    refine ⟨[], h, l, rfl, rfl, ?_⟩
    have := get_of_rep hr
    simp only [Slab.minMaxFrom, this, Tree.content]; rfl
  | node h p k l r ihl ihr =>
    obtain ⟨fuel, rfl⟩ : ∃ n, fuel = n + 1 := ⟨fuel - 1, by simp [Tree.depth] at hf; omega⟩
    obtain ⟨c, h', l', e, hl, he⟩ := ihl hr.2.1 (fuel := fuel) (by simp [Tree.depth] at hf; omega)
    have hg := get_of_rep hr
    refine ⟨c ++ [⟨false, h, p, k, r⟩], h', l', ?_, ?_, ?_⟩
    · rw [plug_append, ← e]; rfl
    · rw [lefts_append, hl]; rfl
    · simp only [Slab.minMaxFrom, hg, Tree.content]; exact he

theorem minMax_max {s : Slab} {t : Tree} {fuel : Nat} (hr : t.Rep s.nodes) (hf : t.depth ≤ fuel) :
    ∃ c h l, t = plug c (.leaf h l) ∧ rights c = [] ∧ s.minMaxFrom true fuel t.handle = .ok h := by
  induction t generalizing fuel with
  | leaf h l =>
    obtain ⟨fuel, rfl⟩ : ∃ n, fuel = n + 1 := ⟨fuel - 1, by simp [Tree.depth] at hf; omega⟩
    refine ⟨[], h, l, rfl, rfl, ?_⟩
    have := get_of_rep hr
    simp only [Slab.minMaxFrom, this, Tree.content]; rfl
  | node h p k l r ihl ihr =>
    obtain ⟨fuel, rfl⟩ : ∃ n, fuel = n + 1 := ⟨fuel - 1, by simp [Tree.depth] at hf; omega⟩
    obtain ⟨c, h', l', e, hl, he⟩ := ihr hr.2.2 (fuel := fuel) (by simp [Tree.depth] at hf; omega)
    have hg := get_of_rep hr
    refine ⟨c ++ [⟨true, h, p, k, l⟩], h', l', ?_, ?_, ?_⟩
    · rw [plug_append, ← e]; rfl
    · rw [rights_append, hl]; rfl
    · simp only [Slab.minMaxFrom, hg, Tree.content]; exact he

theorem leavesFrom_eq {s : Slab} {t : Tree} {fuel : Nat} (hr : t.Rep s.nodes)
    (hf : t.depth ≤ fuel) : s.leavesFrom fuel t.handle = t.leaves := by
  induction t generalizing fuel with
  | leaf h l =>
    obtain ⟨fuel, rfl⟩ : ∃ n, fuel = n + 1 := ⟨fuel - 1, by simp [Tree.depth] at hf; omega⟩
    have := get_of_rep hr
    simp only [Slab.leavesFrom, this, Tree.content]; rfl
  | node h p k l r ihl ihr =>
    obtain ⟨fuel, rfl⟩ : ∃ n, fuel = n + 1 := ⟨fuel - 1, by simp [Tree.depth] at hf; omega⟩
    have hg := get_of_rep hr
    simp only [Slab.leavesFrom, hg, Tree.content]
    rw [ihl hr.2.1 (by simp [Tree.depth] at hf; omega), ihr hr.2.2 (by simp [Tree.depth] at hf; omega)]
    rfl

/-- Where the insertion descent stops. -/
def StopsFor (key : Nat) : Tree → Prop
  | .leaf _ _ => True
  | .node _ p k _ _ => clz128 (k ^^^ key) < p

theorem insertDescend_spec {s : Slab} {t : Tree} {fuel key : Nat} (hr : t.Rep s.nodes)
    (hw : t.WF) (hk : key < 2 ^ 128) (hf : t.depth ≤ fuel) :
    ∃ c sub, t = plug c sub ∧ ok c key ∧ StopsFor key sub ∧
      s.insertDescend key fuel t.handle = .ok sub.handle := by
  induction t generalizing fuel with
  | leaf h l =>
    obtain ⟨fuel, rfl⟩ : ∃ n, fuel = n + 1 := ⟨fuel - 1, by simp [Tree.depth] at hf; omega⟩
    refine ⟨[], .leaf h l, rfl, by simp [ok], trivial, ?_⟩
    have := get_of_rep hr
    simp only [Slab.insertDescend, this, Tree.content]
  | node h p k l r ihl ihr =>
    obtain ⟨fuel, rfl⟩ : ∃ n, fuel = n + 1 := ⟨fuel - 1, by simp [Tree.depth] at hf; omega⟩
    have hg := get_of_rep hr
    obtain ⟨hp, hkk, h1, h2, hl, hr'⟩ := hw
    simp only [Slab.insertDescend, hg, Tree.content]
    by_cases hc : clz128 (k ^^^ key) ≥ p
    · rw [if_pos hc]
      have hpre := (clz128_xor_iff hkk hk (by omega)).1 hc
      cases hb : critBit p key with
      | false =>
        obtain ⟨c, sub, e, ho, hs, he⟩ := ihl hr.2.1 hl (fuel := fuel) (by simp [Tree.depth] at hf; omega)
        refine ⟨c ++ [⟨false, h, p, k, r⟩], sub, ?_, ?_, hs, ?_⟩
        · rw [plug_append, ← e]; rfl
        · rw [ok_append]; refine ⟨ho, ?_⟩
          intro f hf; simp at hf; subst hf; exact ⟨hpre.symm, hb⟩
        · simpa using he
      | true =>
        obtain ⟨c, sub, e, ho, hs, he⟩ := ihr hr.2.2 hr' (fuel := fuel) (by simp [Tree.depth] at hf; omega)
        refine ⟨c ++ [⟨true, h, p, k, l⟩], sub, ?_, ?_, hs, ?_⟩
        · rw [plug_append, ← e]; rfl
        · rw [ok_append]; refine ⟨ho, ?_⟩
          intro f hf; simp at hf; subst hf; exact ⟨hpre.symm, hb⟩
        · simpa using he
    · rw [if_neg hc]
      exact ⟨[], .node h p k l r, rfl, by simp [ok], by simp only [StopsFor]; omega, rfl⟩

/-- Result of the removal descent. -/
theorem removeDescend_spec {s : Slab} {t : Tree} {fuel key : Nat} (hr : t.Rep s.nodes)
    (hw : t.WF) (hf : t.depth ≤ fuel) (f0 : Frame) :
    (∃ c h l, t = plug c (.leaf h l) ∧ l.key = key ∧
      s.removeDescend key fuel f0.h t.handle f0.right =
        .ok (some (((c ++ [f0]).head (by simp)).h, h, ((c ++ [f0]).head (by simp)).right))) ∨
    (key ∉ t.keys ∧ s.removeDescend key fuel f0.h t.handle f0.right = .ok none) := by
  induction t generalizing fuel f0 with
  | leaf h l =>
    obtain ⟨fuel, rfl⟩ : ∃ n, fuel = n + 1 := ⟨fuel - 1, by simp [Tree.depth] at hf; omega⟩
    have := get_of_rep hr
    simp only [Slab.removeDescend, this, Tree.content]
    by_cases hk : l.key = key
    · left
      exact ⟨[], h, l, rfl, hk, by simp [hk, Tree.handle]⟩
    · right
      refine ⟨by simp [Tree.keys, Tree.leaves]; exact fun e => hk e.symm, by simp [hk]⟩
  | node h p k l r ihl ihr =>
    obtain ⟨fuel, rfl⟩ : ∃ n, fuel = n + 1 := ⟨fuel - 1, by simp [Tree.depth] at hf; omega⟩
    have hg := get_of_rep hr
    obtain ⟨hp, hkk, h1, h2, hl, hr'⟩ := hw
    simp only [Slab.removeDescend, hg, Tree.content]
    cases hb : critBit p key with
    | false =>
      rcases ihl hr.2.1 hl (fuel := fuel) (by simp [Tree.depth] at hf; omega) ⟨false, h, p, k, r⟩ with
        ⟨c, h', l', e, hk, he⟩ | ⟨hn, he⟩
      · left
        refine ⟨c ++ [⟨false, h, p, k, r⟩], h', l', by rw [plug_append, ← e]; rfl, hk, ?_⟩
        simp only [Bool.false_eq_true, if_false]
        refine he.trans ?_
        cases c <;> rfl
      · right
        refine ⟨?_, by simpa [Tree.handle] using he⟩
        rw [Tree.keys_node, List.mem_append]
        rintro (hx | hx)
        · exact hn hx
        · have := (h2 key hx).2; simp [hb] at this
    | true =>
      rcases ihr hr.2.2 hr' (fuel := fuel) (by simp [Tree.depth] at hf; omega) ⟨true, h, p, k, l⟩ with
        ⟨c, h', l', e, hk, he⟩ | ⟨hn, he⟩
      · left
        refine ⟨c ++ [⟨true, h, p, k, l⟩], h', l', by rw [plug_append, ← e]; rfl, hk, ?_⟩
        simp only [if_true]
        refine he.trans ?_
        cases c <;> rfl
      · right
        refine ⟨?_, by simpa [Tree.handle] using he⟩
        rw [Tree.keys_node, List.mem_append]
        rintro (hx | hx)
        · have := (h1 key hx).2; simp [hb] at this
        · exact hn hx

/-! ### The representation invariant -/

/-- The slab stores tree `t` with free list `F`. -/
structure Slab.RepT (s : Slab) (t : Tree) (F : List Nat) : Prop where
  rep : t.Rep s.nodes
  wf : t.WF
  root : s.root = t.handle
  count : s.leafCount = t.leaves.length
  alloc : AllocInv s t.handles F

/-- The slab is well formed: either empty or storing a crit-bit tree. -/
def Slab.Inv (s : Slab) : Prop :=
  (∃ F, s.leafCount = 0 ∧ AllocInv s [] F) ∨ ∃ t F, s.RepT t F

theorem Slab.RepT.rootHandle {s : Slab} {t : Tree} {F : List Nat} (h : s.RepT t F) :
    s.rootHandle = some t.handle := by
  unfold Slab.rootHandle
  have : (s.leafCount == 0) = false := by
    have := h.count; have := t.leaves_pos; simp; omega
  simp [this, h.root]

theorem Slab.RepT.depth {s : Slab} {t : Tree} {F : List Nat} (h : s.RepT t F) :
    t.depth ≤ s.nodes.length + 1 := by
  have h1 := t.depth_le
  have h2 := h.alloc.used_le
  unfold Slab.cap at h2
  omega

theorem Slab.RepT.contents {s : Slab} {t : Tree} {F : List Nat} (h : s.RepT t F) :
    s.contents = t.leaves := by
  unfold Slab.contents
  rw [h.rootHandle]
  exact leavesFrom_eq h.rep h.depth

theorem Slab.contents_empty {s : Slab} (h : s.leafCount = 0) : s.contents = [] := by
  unfold Slab.contents Slab.rootHandle; simp [h]

/-- Keys in a slab are sorted strictly, hence distinct. -/
theorem Slab.Inv.sorted {s : Slab} (h : s.Inv) :
    (s.contents.map (·.key)).Pairwise (· < ·) := by
  rcases h with ⟨F, h0, _⟩ | ⟨t, F, h⟩
  · rw [Slab.contents_empty h0]; simp
  · rw [h.contents]; exact h.wf.sorted

theorem Slab.Inv.key_lt {s : Slab} (h : s.Inv) : ∀ l ∈ s.contents, l.key < 2 ^ 128 := by
  rcases h with ⟨F, h0, _⟩ | ⟨t, F, h⟩
  · rw [Slab.contents_empty h0]; simp
  · rw [h.contents]; intro l hl; exact h.wf.key_lt _ (List.mem_map_of_mem hl)

theorem Slab.Inv.count {s : Slab} (h : s.Inv) : s.leafCount = s.contents.length := by
  rcases h with ⟨F, h0, _⟩ | ⟨t, F, h⟩
  · rw [Slab.contents_empty h0, h0]; rfl
  · rw [h.contents]; exact h.count

/-- Space accounting: `2·orders ≤ cap + 1`. -/
theorem Slab.Inv.space {s : Slab} (h : s.Inv) : 2 * s.contents.length ≤ s.cap + 1 := by
  rcases h with ⟨F, h0, _⟩ | ⟨t, F, h⟩
  · rw [Slab.contents_empty h0]; simp
  · rw [h.contents]
    have := h.alloc.used_le; have := t.handles_length; omega

/-! ### Sorted-list specification of the operations -/

/-- Insert into a list sorted by key, replacing an entry with the same key. -/
def insKey (l : Leaf) : List Leaf → List Leaf
  | [] => [l]
  | x :: xs => if l.key < x.key then l :: x :: xs else if l.key = x.key then l :: xs else x :: insKey l xs

theorem insKey_new {l : Leaf} {L R : List Leaf} (h1 : ∀ x ∈ L, x.key < l.key)
    (h2 : ∀ x ∈ R, l.key < x.key) : insKey l (L ++ R) = L ++ l :: R := by
  induction L with
  | nil =>
    cases R with
    | nil => rfl
    | cons y ys => have := h2 y (by simp); simp [insKey, this]
  | cons x xs ih =>
    have hx := h1 x (by simp)
    have a : ¬ l.key < x.key := by omega
    have b : ¬ l.key = x.key := by omega
    simp only [List.cons_append, insKey, if_neg a, if_neg b]
    rw [ih fun y hy => h1 y (by simp [hy])]

theorem insKey_old {l o : Leaf} {L R : List Leaf} (h1 : ∀ x ∈ L, x.key < l.key)
    (ho : o.key = l.key) : insKey l (L ++ o :: R) = L ++ l :: R := by
  induction L with
  | nil => simp [insKey, ho]
  | cons x xs ih =>
    have hx := h1 x (by simp)
    have a : ¬ l.key < x.key := by omega
    have b : ¬ l.key = x.key := by omega
    simp only [List.cons_append, insKey, if_neg a, if_neg b]
    rw [ih fun y hy => h1 y (by simp [hy])]

theorem filter_key_ne {l : Leaf} {L R : List Leaf}
    (hs : ((L ++ l :: R).map (·.key)).Pairwise (· < ·)) :
    (L ++ l :: R).filter (fun x => x.key != l.key) = L ++ R := by
  rw [List.map_append, List.pairwise_append, List.map_cons, List.pairwise_cons] at hs
  rw [List.filter_append, List.filter_cons]
  simp only [bne_self_eq_false, Bool.false_eq_true, if_false]
  congr 1
  · rw [List.filter_eq_self]
    intro x hx
    have := hs.2.2 x.key (List.mem_map_of_mem hx) l.key (by simp)
    simp; omega
  · rw [List.filter_eq_self]
    intro x hx
    have := hs.2.1.1 x.key (List.mem_map_of_mem hx)
    simp; omega

theorem find_key {l : Leaf} {L R : List Leaf}
    (hs : ((L ++ l :: R).map (·.key)).Pairwise (· < ·)) :
    (L ++ l :: R).find? (fun x => x.key == l.key) = some l := by
  rw [List.map_append, List.pairwise_append, List.map_cons, List.pairwise_cons] at hs
  rw [List.find?_append, List.find?_cons]
  have : L.find? (fun x => x.key == l.key) = none := by
    rw [List.find?_eq_none]
    intro x hx
    have := hs.2.2 x.key (List.mem_map_of_mem hx) l.key (by simp)
    simp; omega
  simp [this]

theorem find_key_none {k : Nat} {L : List Leaf} (h : k ∉ L.map (·.key)) :
    L.find? (fun x => x.key == k) = none := by
  rw [List.find?_eq_none]
  intro x hx e
  exact h (by simp at e; exact e ▸ List.mem_map_of_mem hx)

theorem filter_key_none {k : Nat} {L : List Leaf} (h : k ∉ L.map (·.key)) :
    L.filter (fun x => x.key != k) = L := by
  rw [List.filter_eq_self]
  intro x hx
  simp
  intro e
  exact h (e ▸ List.mem_map_of_mem hx)

theorem Tree.handle_node (h p k : Nat) (l r : Tree) : (Tree.node h p k l r).handle = h := rfl

/-! ### Disjointness of handles in a plugged tree -/

theorem nodup_plug {c : Ctx} {t : Tree} (h : (plug c t).handles.Nodup) :
    (Ctx.handles c ++ t.handles).Nodup := (handles_plug c t).nodup_iff.1 h

/-- Replace the tree in the hole, keeping its handle. -/
theorem rep_replace {nodes nodes' : List Node} {c : Ctx} {t t' : Tree}
    (h : (plug c t).Rep nodes) (hh : t'.handle = t.handle) (ht : t'.Rep nodes')
    (hf : ∀ x ∈ Ctx.handles c, nodes'[x]? = nodes[x]?) : (plug c t').Rep nodes' := by
  rw [rep_plug] at h ⊢
  rw [hh]
  exact ⟨h.1.frame hf, ht⟩

/-! ### `insert_leaf` -/

/-- Everything the caller can observe about a slab transition that keeps the account size. -/
structure SlabStep (s s' : Slab) (cs : List Leaf) : Prop where
  inv : s'.Inv
  contents : s'.contents = cs
  nodes : s'.nodes.length = s.nodes.length

theorem SlabStep.cap {s s' : Slab} {cs : List Leaf} (h : SlabStep s s' cs) : s'.cap = s.cap := by
  unfold Slab.cap; rw [h.nodes]

theorem put_leaf_spec {s : Slab} {c : Ctx} {h : Nat} {l l' : Leaf} {F : List Nat}
    (hs : s.RepT (plug c (.leaf h l)) F) (hk : l'.key = l.key) :
    SlabStep s (s.put h (.leaf l')) (lefts c ++ l' :: rights c) := by
  have hnd := nodup_plug (List.nodup_append.1 hs.alloc.nd).1
  have hnd := List.nodup_append.1 hnd
  have hh : h < s.nodes.length := hs.alloc.lt_len (by
    rw [List.mem_append]; left
    exact (handles_plug c _).mem_iff.2 (by simp [Tree.handles]))
  have hrep : (plug c (.leaf h l')).Rep (s.put h (.leaf l')).nodes := by
    refine rep_replace hs.rep rfl ?_ ?_
    · show (s.nodes.set h _)[h]? = _
      rw [List.getElem?_set_self hh]
    · intro x hx
      show (s.nodes.set h _)[x]? = _
      rw [List.getElem?_set_ne]
      intro e
      exact hnd.2.2 x hx h (by simp [Tree.handles]) e.symm
  have hwf : (plug c (.leaf h l')).WF := by
    have := hs.wf
    rw [wf_plug] at this ⊢
    simp only [Tree.WF, Tree.keys, Tree.leaves, List.map_cons, List.map_nil, List.mem_singleton,
      hk] at this ⊢
    exact this
  have hT : (s.put h (.leaf l')).RepT (plug c (.leaf h l')) F := by
    refine ⟨hrep, hwf, ?_, ?_, ?_⟩
    · exact hs.root.trans (plug_handle c rfl)
    · refine hs.count.trans ?_
      rw [leaves_plug, leaves_plug]; simp [Tree.leaves]
    · have h1 : AllocInv s (plug c (.leaf h l')).handles F :=
        hs.alloc.perm ((handles_plug c _).trans ((handles_plug c (.leaf h l)).symm))
      refine h1.congr rfl rfl rfl (by simp [Slab.put]) ?_
      intro x hx
      show (s.nodes.set h _)[x]? = _
      rw [List.getElem?_set_ne]
      intro e
      subst e
      exact (List.nodup_append.1 hs.alloc.nd).2.2 h
        ((handles_plug c _).mem_iff.2 (by simp [Tree.handles])) h hx rfl
  refine ⟨.inr ⟨_, _, hT⟩, ?_, by simp [Slab.put]⟩
  rw [hT.contents, leaves_plug]; simp [Tree.leaves]

/-- Sorting facts for a leaf inside a plugged tree. -/
theorem plug_sorted {c : Ctx} {t : Tree} (h : (plug c t).WF) :
    ((lefts c ++ t.leaves ++ rights c).map (·.key)).Pairwise (· < ·) := by
  have := h.sorted
  unfold Tree.keys at this
  rwa [leaves_plug] at this

/-- The subtree's root key. -/
def Tree.rootKey : Tree → Nat
  | .leaf _ l => l.key
  | .node _ _ k _ _ => k

/-- Splitting point facts: every key of the stopping subtree shares the new node's prefix and has
the opposite critical bit. -/
theorem split_facts {sub : Tree} {key : Nat} (hw : sub.WF) (hk : key < 2 ^ 128)
    (hs : StopsFor key sub) (hne : key ∉ sub.keys) :
    let p := clz128 (sub.rootKey ^^^ key)
    p < 128 ∧ ∀ x ∈ sub.keys, pre p x = pre p key ∧ critBit p x = !critBit p key := by
  cases sub with
  | leaf h l =>
    have hlk : l.key ≠ key := by
      intro e; exact hne (by simp [Tree.keys, Tree.leaves, e])
    have h := critBit_shared (x := l.key) (y := key) hw hk hlk
    refine ⟨h.1, ?_⟩
    intro x hx
    simp [Tree.keys, Tree.leaves] at hx
    subst hx
    exact ⟨h.2.1, h.2.2⟩
  | node h p k l r =>
    obtain ⟨hp, hkk, h1, h2, hl, hr⟩ := hw
    have hsp : clz128 (k ^^^ key) < p := hs
    have hne' : k ≠ key := by
      intro e; subst e
      simp only [Nat.xor_self] at hsp
      have : clz128 0 = 128 := by simp [clz128]
      omega
    have hsh := critBit_shared (x := k) (y := key) hkk hk hne'
    refine ⟨hsh.1, ?_⟩
    intro x hx
    have hpx : pre p x = pre p k := by
      rw [Tree.keys_node, List.mem_append] at hx
      rcases hx with hx | hx
      · exact (h1 x hx).1
      · exact (h2 x hx).1
    show pre (clz128 (k ^^^ key)) x = _ ∧ critBit (clz128 (k ^^^ key)) x = _
    exact ⟨(pre_mono (by omega) (by omega) hpx).trans hsh.2.1,
      (critBit_of_pre hsp (by omega) hpx).trans hsh.2.2⟩

/-- The tree that replaces `sub` when `leaf` is inserted at its root. -/
def splitTree (sub : Tree) (leaf : Leaf) (newH movedH : Nat) : Tree :=
  let p := clz128 (sub.rootKey ^^^ leaf.key)
  if critBit p leaf.key then
    .node sub.handle p leaf.key (sub.rehandle movedH) (.leaf newH leaf)
  else .node sub.handle p leaf.key (.leaf newH leaf) (sub.rehandle movedH)

theorem splitTree_handle (sub : Tree) (leaf : Leaf) (a b : Nat) :
    (splitTree sub leaf a b).handle = sub.handle := by
  unfold splitTree; simp only; split <;> rfl

theorem splitTree_wf {sub : Tree} {leaf : Leaf} {a b : Nat} (hw : sub.WF)
    (hk : leaf.key < 2 ^ 128) (hs : StopsFor leaf.key sub) (hne : leaf.key ∉ sub.keys) :
    (splitTree sub leaf a b).WF := by
  have h := split_facts hw hk hs hne
  simp only at h
  unfold splitTree
  simp only
  split
  · rename_i hb
    refine ⟨h.1, hk, ?_, ?_, Tree.rehandle_wf _ hw, hk⟩
    · rw [Tree.rehandle_keys]
      intro x hx; have := h.2 x hx; exact ⟨this.1, by rw [this.2, hb]; rfl⟩
    · intro x hx
      simp [Tree.keys, Tree.leaves] at hx; subst hx; exact ⟨rfl, hb⟩
  · rename_i hb
    have hb : critBit (clz128 (sub.rootKey ^^^ leaf.key)) leaf.key = false := by simpa using hb
    refine ⟨h.1, hk, ?_, ?_, hk, Tree.rehandle_wf _ hw⟩
    · intro x hx
      simp [Tree.keys, Tree.leaves] at hx; subst hx; exact ⟨rfl, hb⟩
    · rw [Tree.rehandle_keys]
      intro x hx; have := h.2 x hx; exact ⟨this.1, by rw [this.2, hb]; rfl⟩

theorem splitTree_keys {sub : Tree} {leaf : Leaf} {a b : Nat} :
    ∀ x, x ∈ (splitTree sub leaf a b).keys ↔ x = leaf.key ∨ x ∈ sub.keys := by
  intro x
  unfold splitTree
  simp only
  split <;> rw [Tree.keys_node, List.mem_append, Tree.rehandle_keys] <;>
    simp [Tree.keys, Tree.leaves, or_comm]

theorem splitTree_leaves {sub : Tree} {leaf : Leaf} {a b : Nat} :
    (splitTree sub leaf a b).leaves = leaf :: sub.leaves ∨
    (splitTree sub leaf a b).leaves = sub.leaves ++ [leaf] := by
  unfold splitTree
  simp only
  split
  · right; simp [Tree.leaves, Tree.rehandle_leaves]
  · left; simp [Tree.leaves, Tree.rehandle_leaves]

theorem splitTree_handles {sub : Tree} {leaf : Leaf} {a b : Nat} :
    (splitTree sub leaf a b).handles.Perm (b :: a :: sub.handles) := by
  unfold splitTree
  simp only
  rw [Tree.handles_eq sub]
  split
  · simp only [Tree.handles, Tree.rehandle_handles]
    refine ((List.perm_append_comm).cons _).trans ?_
    simp only [List.singleton_append]
    refine (List.Perm.swap _ _ _).trans ?_
    refine ((List.Perm.swap _ _ _).cons _).trans ?_
    exact List.Perm.swap _ _ _
  · simp only [Tree.handles, Tree.rehandle_handles, List.singleton_append]
    refine (List.Perm.swap _ _ _).trans ?_
    refine ((List.Perm.swap _ _ _).cons _).trans ?_
    exact List.Perm.swap _ _ _

theorem get_put_other {s : Slab} {h x : Nat} {n : Node} (hx : x ≠ h) :
    (s.put h n).nodes[x]? = s.nodes[x]? := by
  show (s.nodes.set h n)[x]? = _
  rw [List.getElem?_set_ne (fun e => hx e.symm)]

/-- A key that fits the hole of a well-formed plugged tree is in the tree only if it is in the
hole's subtree. -/
theorem key_in_hole {key : Nat} : ∀ (c : Ctx) (sub : Tree), (plug c sub).WF → ok c key →
    key ∈ (plug c sub).keys → key ∈ sub.keys := by
  intro c
  induction c with
  | nil => intro sub _ _ h; exact h
  | cons f c ih =>
    intro sub hwf hok hm
    have hok' : (pre f.p key = pre f.p f.k ∧ critBit f.p key = f.right) ∧
        ok c key := by simpa [ok] using hok
    have h1 := ih _ hwf hok'.2 hm
    have hw := ((wf_plug (f :: c) sub).1 hwf).1
    unfold Frame.fill at h1
    have hcase : key ∈ f.sib.keys ∨ key ∈ sub.keys := by
      split at h1
      · rwa [Tree.keys_node, List.mem_append] at h1
      · rwa [Tree.keys_node, List.mem_append, or_comm] at h1
    rcases hcase with h | h
    · have := (hw.2.2.2.1 _ h).2
      rw [hok'.1.2] at this
      cases f.right <;> simp at this
    · exact h

/-- The splitting branch of `insert_leaf`. -/
theorem splitAt_spec {s : Slab} {c : Ctx} {sub : Tree} {F : List Nat} {leaf : Leaf}
    (hs : s.RepT (plug c sub) F) (hk : leaf.key < 2 ^ 128) (hok : ok c leaf.key)
    (hst : StopsFor leaf.key sub) (hne : leaf.key ∉ sub.keys) :
    if 2 * s.contents.length + 1 ≤ s.cap then
      ∃ s' h, Slab.insertAt.splitAt leaf sub.handle s sub.rootKey sub.content =
          .ok (s', .ok (h, none)) ∧ SlabStep s s' (insKey leaf s.contents) ∧
        leaf.key ∉ s.contents.map (·.key)
    else
      ∃ s', Slab.insertAt.splitAt leaf sub.handle s sub.rootKey sub.content = .ok (s', .error ()) ∧
        SlabStep s s' s.contents := by
  have hcont : s.contents = (plug c sub).leaves := hs.contents
  have hused : (plug c sub).handles.length + 1 = 2 * s.contents.length := by
    rw [hcont]; exact (plug c sub).handles_length
  have ha := alloc_spec hs.alloc (.leaf leaf)
  unfold Slab.insertAt.splitAt
  by_cases hc1 : (plug c sub).handles.length < s.cap
  · rw [if_pos hc1] at ha
    obtain ⟨newH, s1, F1, e1, hn1, hi1, hnodes1, hroot1, hcnt1⟩ := ha
    have hcap1 : s1.cap = s.cap := by unfold Slab.cap; rw [hnodes1]; simp
    have hb := alloc_spec hi1 sub.content
    rw [hcap1] at hb
    simp only [e1]
    by_cases hc2 : (newH :: (plug c sub).handles).length < s.cap
    · rw [if_pos hc2] at hb
      obtain ⟨movedH, s2, F2, e2, hn2, hi2, hnodes2, hroot2, hcnt2⟩ := hb
      have hcap : 2 * s.contents.length + 1 ≤ s.cap := by simp only [List.length_cons] at hc2; omega
      rw [if_pos hcap]
      have hnewlt : newH < s.nodes.length := by
        have := hi1.lt_len (x := newH) (by simp)
        rw [hnodes1] at this; simpa using this
      have hmovlt : movedH < s1.nodes.length := by
        have := hi2.lt_len (x := movedH) (by simp)
        rw [hnodes2] at this; simpa using this
      have hsubmem : sub.handle ∈ (plug c sub).handles :=
        (handles_plug c sub).mem_iff.2 (by simp [sub.handle_mem])
      have hne_nm : newH ≠ movedH := by rintro rfl; exact hn2 (by simp)
      have hne_sn : sub.handle ≠ newH := by rintro e; exact hn1 (e ▸ hsubmem)
      have hne_sm : sub.handle ≠ movedH := by rintro e; exact hn2 (by simp [← e, hsubmem])
      have hsublt : sub.handle < s.nodes.length := hs.alloc.lt_len (by simp [hsubmem])
      -- all other nodes keep their contents
      have hold : ∀ x ∈ (plug c sub).handles, x ≠ sub.handle → ∀ n,
          (s2.put sub.handle n).nodes[x]? = s.nodes[x]? := by
        intro x hx hxs n
        rw [get_put_other hxs, hnodes2, List.getElem?_set_ne, hnodes1, List.getElem?_set_ne]
        · rintro rfl; exact hn1 hx
        · rintro rfl; exact hn2 (by simp [hx])
      have hnew : ∀ n, (s2.put sub.handle n).nodes[newH]? = some (.leaf leaf) := by
        intro n
        rw [get_put_other hne_sn.symm, hnodes2, List.getElem?_set_ne hne_nm.symm, hnodes1,
          List.getElem?_set_self hnewlt]
      have hmov : ∀ n, (s2.put sub.handle n).nodes[movedH]? = some sub.content := by
        intro n
        rw [get_put_other hne_sm.symm, hnodes2, List.getElem?_set_self hmovlt]
      have hself : ∀ n, (s2.put sub.handle n).nodes[sub.handle]? = some n := by
        intro n
        show (s2.nodes.set _ _)[_]? = _
        rw [List.getElem?_set_self]
        rw [hnodes2, hnodes1]; simpa using hsublt
      have hnd := List.nodup_append.1 (nodup_plug (List.nodup_append.1 hs.alloc.nd).1)
      have hsubnd := hnd.2.1
      rw [Tree.handles_eq sub, List.nodup_cons] at hsubnd
      have hreps := (rep_plug c sub).1 hs.rep
      have hw := (wf_plug c sub).1 hs.wf
      refine ⟨_, newH, by simp only [bind, Except.bind, e2]; rfl, ?_, ?_⟩
      · -- the resulting tree
        have hT : ({ s2.put sub.handle (if critBit (clz128 (sub.rootKey ^^^ leaf.key)) leaf.key
              then Node.inner (clz128 (sub.rootKey ^^^ leaf.key)) leaf.key movedH newH
              else Node.inner (clz128 (sub.rootKey ^^^ leaf.key)) leaf.key newH movedH) with
              leafCount := wadd s2.leafCount 1 } : Slab).RepT
            (plug c (splitTree sub leaf newH movedH)) F2 := by
          refine ⟨?_, ?_, ?_, ?_, ?_⟩
          · refine rep_replace hs.rep (splitTree_handle _ _ _ _) ?_ ?_
            · have hre : ∀ n, (sub.rehandle movedH).Rep (s2.put sub.handle n).nodes := by
                intro n
                refine Tree.rep_rehandle hreps.2 (hmov n) ?_
                intro x hx
                refine hold x ?_ ?_ n
                · exact (handles_plug c sub).mem_iff.2 (by simp [Tree.handles_eq sub, hx])
                · rintro rfl; exact hsubnd.1 hx
              unfold splitTree
              simp only
              cases hb : critBit (clz128 (sub.rootKey ^^^ leaf.key)) leaf.key with
              | true =>
                simp only [if_true]
                refine ⟨?_, hre _, hnew _⟩
                rw [Tree.rehandle_handle]; exact hself _
              | false =>
                simp only [Bool.false_eq_true, if_false]
                refine ⟨?_, hnew _, hre _⟩
                rw [Tree.rehandle_handle]; exact hself _
            · intro x hx
              refine hold x ?_ ?_ _
              · exact (handles_plug c sub).mem_iff.2 (by simp [hx])
              · rintro rfl
                exact hnd.2.2 _ hx _ sub.handle_mem rfl
          · rw [wf_plug]
            refine ⟨hw.1, splitTree_wf hw.2.1 hk hst hne, ?_⟩
            intro x hx
            rcases (splitTree_keys x).1 hx with rfl | hx
            · exact hok
            · exact hw.2.2 x hx
          · show s2.root = _
            rw [hroot2, hroot1, hs.root]
            exact plug_handle c (splitTree_handle _ _ _ _).symm
          · show wadd s2.leafCount 1 = _
            rw [hcnt2, hcnt1, hs.count, wadd_eq, leaves_plug, leaves_plug]
            · rcases splitTree_leaves (sub := sub) (leaf := leaf) (a := newH) (b := movedH) with h | h <;>
                rw [h] <;> simp <;> omega
            · have : s.cap ≤ u32Max := by unfold Slab.cap; omega
              rw [← hcont]; unfold u32Max W64 at *; omega
          · have hp : (plug c (splitTree sub leaf newH movedH)).handles.Perm
                (movedH :: newH :: (plug c sub).handles) := by
              refine (handles_plug c _).trans ?_
              refine (splitTree_handles.append_left _).trans ?_
              refine List.perm_middle.trans (List.Perm.cons _ ?_)
              refine List.perm_middle.trans (List.Perm.cons _ ?_)
              exact (handles_plug c sub).symm
            refine (hi2.perm hp).congr rfl rfl rfl (by simp [Slab.put]) ?_
            intro x hx
            refine get_put_other ?_
            rintro rfl
            exact (List.nodup_append.1 hi2.nd).2.2 sub.handle (by simp [hsubmem]) _ hx rfl
        refine ⟨.inr ⟨_, _, hT⟩, ?_, ?_⟩
        · refine hT.contents.trans ?_
          rw [hcont, leaves_plug, leaves_plug]
          have hso := plug_sorted hT.wf
          rcases splitTree_leaves (sub := sub) (leaf := leaf) (a := newH) (b := movedH) with h | h
          · rw [h] at hso ⊢
            have e : lefts c ++ leaf :: sub.leaves ++ rights c =
              lefts c ++ leaf :: (sub.leaves ++ rights c) := by simp
            rw [e] at hso ⊢
            rw [List.map_append, List.pairwise_append, List.map_cons, List.pairwise_cons] at hso
            rw [List.append_assoc, insKey_new]
            · intro x hx; exact hso.2.2 _ (List.mem_map_of_mem hx) _ (by simp)
            · intro x hx; exact hso.2.1.1 _ (List.mem_map_of_mem hx)
          · rw [h] at hso ⊢
            have e : lefts c ++ (sub.leaves ++ [leaf]) ++ rights c =
              (lefts c ++ sub.leaves) ++ leaf :: rights c := by simp
            rw [e] at hso ⊢
            rw [List.map_append, List.pairwise_append, List.map_cons, List.pairwise_cons] at hso
            rw [insKey_new]
            · intro x hx; exact hso.2.2 _ (List.mem_map_of_mem hx) _ (by simp)
            · intro x hx; exact hso.2.1.1 _ (List.mem_map_of_mem hx)
        · show (s2.nodes.set _ _).length = _
          rw [hnodes2, hnodes1]; simp
      · rw [hcont, leaves_plug]
        -- the key is new: it belongs to the hole and is not in the subtree
        intro hx
        have hx' : leaf.key ∈ (plug c sub).keys := by unfold Tree.keys; rw [leaves_plug]; exact hx
        exact hne (key_in_hole c sub hs.wf hok hx')
    · rw [if_neg hc2] at hb
      have hcap : ¬ 2 * s.contents.length + 1 ≤ s.cap := by simp only [List.length_cons] at hc2; omega
      rw [if_neg hcap]
      have hg : s1.get newH = some (.leaf leaf) := by
        refine get_of_node ?_ (.inr ⟨_, rfl⟩)
        rw [hnodes1, List.getElem?_set_self]
        have := hi1.lt_len (x := newH) (by simp)
        rw [hnodes1] at this; simpa using this
      obtain ⟨s2, e2, hi2, hroot2, hcnt2, hlen2, hold2⟩ := dealloc_spec hi1 hg
      refine ⟨s2, by simp only [hb, bind, Except.bind, e2, unwrap]; rfl, ?_⟩
      have hT : s2.RepT (plug c sub) (newH :: F1) := by
        refine ⟨hs.rep.frame ?_, hs.wf, ?_, ?_, hi2⟩
        · intro x hx
          have hxn : x ≠ newH := by rintro rfl; exact hn1 hx
          rw [hold2 x hxn, hnodes1, List.getElem?_set_ne hxn.symm]
        · rw [hroot2, hroot1, hs.root]
        · rw [hcnt2, hcnt1, hs.count]
      refine ⟨.inr ⟨_, _, hT⟩, by rw [hT.contents, hcont], ?_⟩
      rw [hlen2, hnodes1]; simp
  · rw [if_neg hc1] at ha
    have hcap : ¬ 2 * s.contents.length + 1 ≤ s.cap := by omega
    rw [if_neg hcap]
    refine ⟨s, by rw [ha]; rfl, .inr ⟨_, _, hs⟩, rfl, rfl⟩

/-- Specification of `insert_leaf`: with room (or when the id is already present) the order is
inserted into the sorted contents; otherwise `OutOfSpace`, and nothing changes. Never panics. -/
theorem insertLeaf_spec {s : Slab} (hs : s.Inv) {leaf : Leaf} (hk : leaf.key < 2 ^ 128) :
    if leaf.key ∈ s.contents.map (·.key) ∨ 2 * s.contents.length + 1 ≤ s.cap then
      ∃ s' h, s.insertLeaf leaf =
          .ok (s', .ok (h, s.contents.find? (fun x => x.key == leaf.key))) ∧
        SlabStep s s' (insKey leaf s.contents)
    else
      ∃ s', s.insertLeaf leaf = .ok (s', .error ()) ∧ SlabStep s s' s.contents := by
  rcases hs with ⟨F, h0, hal⟩ | ⟨t, F, hT⟩
  · have hc0 := Slab.contents_empty h0
    have ha := alloc_spec hal (.leaf leaf)
    have hr0 : s.rootHandle = none := by unfold Slab.rootHandle; simp [h0]
    simp only [hc0, List.map_nil, List.not_mem_nil, false_or, List.length_nil, List.find?_nil] at ha ⊢
    unfold Slab.insertLeaf
    rw [hr0]
    by_cases hc : 0 < s.cap
    · rw [if_pos hc] at ha
      rw [if_pos (by omega)]
      obtain ⟨x, s1, F1, e1, hn1, hi1, hnodes1, hroot1, hcnt1⟩ := ha
      refine ⟨_, x, by simp only [bind, Except.bind, e1]; rfl, ?_⟩
      have hT : ({ s1 with root := x, leafCount := 1 } : Slab).RepT (.leaf x leaf) F1 := by
        refine ⟨?_, hk, rfl, rfl, hi1.congr rfl rfl rfl rfl (fun _ _ => rfl)⟩
        show s1.nodes[x]? = _
        rw [hnodes1, List.getElem?_set_self]
        have := hi1.lt_len (x := x) (by simp)
        rw [hnodes1] at this; simpa using this
      refine ⟨.inr ⟨_, _, hT⟩, hT.contents, ?_⟩
      show s1.nodes.length = _
      rw [hnodes1]; simp
    · rw [if_neg hc] at ha
      rw [if_neg (by omega)]
      exact ⟨s, by simp only [bind, Except.bind, ha]; rfl, .inl ⟨F, h0, hal⟩, hc0, rfl⟩
  · obtain ⟨c, sub, e, hok, hst, hd⟩ := insertDescend_spec hT.rep hT.wf hk hT.depth
    subst e
    have hrep := (rep_plug c sub).1 hT.rep
    have hg : s.get sub.handle = some sub.content := get_of_rep hrep.2
    unfold Slab.insertLeaf
    rw [hT.rootHandle]
    simp only [bind, Except.bind, hd]
    unfold Slab.insertAt
    simp only [hg, unwrap, bind, Except.bind]
    have hkeys : ∀ x, x ∈ s.contents.map (·.key) ↔ x ∈ (plug c sub).keys := by
      intro x; rw [hT.contents]; rfl
    -- the non-clobbering case, shared by leaf and inner subtrees
    have hsplit : leaf.key ∉ sub.keys →
        if leaf.key ∈ s.contents.map (·.key) ∨ 2 * s.contents.length + 1 ≤ s.cap then
          ∃ s' h, Slab.insertAt.splitAt leaf sub.handle s sub.rootKey sub.content =
              .ok (s', .ok (h, s.contents.find? (fun x => x.key == leaf.key))) ∧
            SlabStep s s' (insKey leaf s.contents)
        else
          ∃ s', Slab.insertAt.splitAt leaf sub.handle s sub.rootKey sub.content =
              .ok (s', .error ()) ∧ SlabStep s s' s.contents := by
      intro hne
      have hnot : leaf.key ∉ s.contents.map (·.key) := by
        rw [hkeys]; exact fun h => hne (key_in_hole c sub hT.wf hok h)
      have h := splitAt_spec hT hk hok hst hne
      simp only [hnot, false_or]
      split at h
      · rename_i hc
        obtain ⟨s', h', e', hstep, _⟩ := h
        rw [if_pos hc, find_key_none hnot]
        exact ⟨s', h', e', hstep⟩
      · rename_i hc
        rw [if_neg hc]; exact h
    cases sub with
    | leaf h old =>
      simp only [Tree.content]
      by_cases hkey : old.key = leaf.key
      · have hb : (old.key == leaf.key) = true := by simp [hkey]
        simp only [hb, if_true]
        have hin : leaf.key ∈ s.contents.map (·.key) := by
          rw [hT.contents, leaves_plug]; simp [Tree.leaves, hkey]
        rw [if_pos (.inl hin)]
        have hso := plug_sorted hT.wf
        simp only [Tree.leaves, List.append_assoc, List.singleton_append] at hso
        refine ⟨s.put h (.leaf leaf), h, ?_, ?_⟩
        · rw [hT.contents, leaves_plug]
          simp only [Tree.leaves, List.append_assoc, List.singleton_append]
          rw [← hkey, find_key hso]; rfl
        · have := put_leaf_spec hT (l' := leaf) hkey.symm
          rw [hT.contents, leaves_plug]
          simp only [Tree.leaves, List.append_assoc, List.singleton_append]
          rw [insKey_old _ hkey]
          · exact this
          · rw [List.map_append, List.pairwise_append] at hso
            intro x hx
            rw [← hkey]
            exact hso.2.2 _ (List.mem_map_of_mem hx) _ (by simp)
      · have hb : (old.key == leaf.key) = false := by simp [hkey]
        simp only [hb, Bool.false_eq_true, if_false]
        exact hsplit (by simp [Tree.keys, Tree.leaves]; exact fun e => hkey e.symm)
    | node h p k l r =>
      simp only [Tree.content]
      refine hsplit ?_
      intro hx
      have hw := ((wf_plug c _).1 hT.wf).2.1
      obtain ⟨hp, hkk, h1, h2, hl, hr⟩ := hw
      have hpre : pre p leaf.key = pre p k := by
        rw [Tree.keys_node, List.mem_append] at hx
        rcases hx with hx | hx
        · exact (h1 _ hx).1
        · exact (h2 _ hx).1
      have hsp : clz128 (k ^^^ leaf.key) < p := hst
      have := (clz128_xor_iff hkk hk (by omega : p ≤ 128)).2 hpre.symm
      omega

/-! ### `remove_by_key` -/

/-- Specification of `remove_by_key`: the order with that id, if any, is returned and deleted;
nothing else changes. Never panics. -/
theorem removeByKey_spec {s : Slab} (hs : s.Inv) (key : Nat) :
    ∃ s', s.removeByKey key = .ok (s', s.contents.find? (fun x => x.key == key)) ∧
      SlabStep s s' (s.contents.filter (fun x => x.key != key)) := by
  rcases hs with ⟨F, h0, hal⟩ | ⟨t, F, hT⟩
  · have hc0 := Slab.contents_empty h0
    have hr0 : s.rootHandle = none := by unfold Slab.rootHandle; simp [h0]
    refine ⟨s, ?_, .inl ⟨F, h0, hal⟩, by simp [hc0], rfl⟩
    unfold Slab.removeByKey
    rw [hr0, hc0]; rfl
  · have hself : s.Inv := .inr ⟨t, F, hT⟩
    have hcont := hT.contents
    have habsent : key ∉ t.keys → s.contents.find? (fun x => x.key == key) = none ∧
        s.contents.filter (fun x => x.key != key) = s.contents := by
      intro h
      rw [hcont]
      exact ⟨find_key_none h, filter_key_none h⟩
    unfold Slab.removeByKey
    rw [hT.rootHandle]
    have hg : s.get t.handle = some t.content := get_of_rep hT.rep
    cases t with
    | leaf h l =>
      simp only [hg, Tree.content]
      by_cases hk : l.key = key
      · have hb : (l.key == key) = true := by simp [hk]
        have hcnt : (s.leafCount == 1) = true := by rw [hT.count]; rfl
        simp only [hb, if_true, hcnt, rustAssert, bind, Except.bind, pure, Except.pure]
        have hal : AllocInv { s with root := 0, leafCount := 0 } [h] F :=
          hT.alloc.congr rfl rfl rfl rfl (fun _ _ => rfl)
        obtain ⟨s2, e2, hi2, hroot2, hcnt2, hlen2, hold2⟩ := dealloc_spec hal (n := .leaf l) hg
        simp only [Tree.handle, e2, unwrap]
        refine ⟨s2, ?_, .inl ⟨_, hcnt2, hi2⟩, ?_, hlen2⟩
        · rw [hcont]; simp [Tree.leaves, hk]
        · rw [hcont, Slab.contents_empty hcnt2]; simp [Tree.leaves, hk]
      · have hb : (l.key == key) = false := by simp [hk]
        have := habsent (by simp [Tree.keys, Tree.leaves]; exact fun e => hk e.symm)
        simp only [hb, Bool.false_eq_true, if_false]
        exact ⟨s, by rw [this.1]; rfl, hself, this.2.symm, rfl⟩
    | node h p k l r =>
      simp only [hg, Tree.content]
      have hdep := hT.depth
      obtain ⟨hp, hkk, h1, h2, hl, hr⟩ := hT.wf
      -- the descent, in both directions
      have hdesc : (∃ f c h' l', Tree.node h p k l r = plug (f :: c) (.leaf h' l') ∧ l'.key = key ∧
          s.removeDescend key (s.nodes.length + 1) h
            (if critBit p key then r.handle else l.handle) (critBit p key) =
            .ok (some (f.h, h', f.right))) ∨
          (key ∉ (Tree.node h p k l r).keys ∧ s.removeDescend key (s.nodes.length + 1) h
            (if critBit p key then r.handle else l.handle) (critBit p key) = .ok none) := by
        cases hb : critBit p key with
        | false =>
          rcases removeDescend_spec (fuel := s.nodes.length + 1) (key := key) hT.rep.2.1 hl
            (by simp [Tree.depth] at hdep; omega) ⟨false, h, p, k, r⟩ with
            ⟨c, h', l', e, hk', he⟩ | ⟨hn, he⟩
          · left
            have hpl : Tree.node h p k l r = plug (c ++ [⟨false, h, p, k, r⟩]) (.leaf h' l') := by
              rw [plug_append, ← e]; rfl
            cases hcc : c ++ [(⟨false, h, p, k, r⟩ : Frame)] with
            | nil => simp at hcc
            | cons f c' =>
              simp only [hcc, List.head_cons] at he
              rw [hcc] at hpl
              exact ⟨f, c', h', l', hpl, hk', by simpa using he⟩
          · right
            refine ⟨?_, by simpa using he⟩
            rw [Tree.keys_node, List.mem_append]
            rintro (hx | hx)
            · exact hn hx
            · have := (h2 key hx).2; simp [hb] at this
        | true =>
          rcases removeDescend_spec (fuel := s.nodes.length + 1) (key := key) hT.rep.2.2 hr
            (by simp [Tree.depth] at hdep; omega) ⟨true, h, p, k, l⟩ with
            ⟨c, h', l', e, hk', he⟩ | ⟨hn, he⟩
          · left
            have hpl : Tree.node h p k l r = plug (c ++ [⟨true, h, p, k, l⟩]) (.leaf h' l') := by
              rw [plug_append, ← e]; rfl
            cases hcc : c ++ [(⟨true, h, p, k, l⟩ : Frame)] with
            | nil => simp at hcc
            | cons f c' =>
              simp only [hcc, List.head_cons] at he
              rw [hcc] at hpl
              exact ⟨f, c', h', l', hpl, hk', by simpa using he⟩
          · right
            refine ⟨?_, by simpa using he⟩
            rw [Tree.keys_node, List.mem_append]
            rintro (hx | hx)
            · have := (h1 key hx).2; simp [hb] at this
            · exact hn hx
      rcases hdesc with ⟨f, c, h', l', hpl, hk', he⟩ | ⟨hn, he⟩
      · simp only [Tree.handle_node, bind, Except.bind, he]
        clear hdep h1 h2 hl hr hp hkk hg habsent he
        rw [hpl] at hT hcont
        clear hpl
        -- handles of the pieces
        have hused : (plug (f :: c) (.leaf h' l')).handles.Perm
            (f.sib.handle :: h' :: f.h :: (f.sib.tailHandles ++ Ctx.handles c)) := by
          refine (handles_plug _ _).trans ?_
          simp only [Ctx.handles, Tree.handles]
          rw [Tree.handles_eq f.sib]
          simp only [List.cons_append]
          refine (List.Perm.swap _ _ _).trans (List.Perm.cons _ ?_)
          refine ((List.perm_append_singleton _ _).cons _).trans ?_
          exact List.Perm.swap _ _ _
        have hal := hT.alloc.perm hused.symm
        have hnd := (List.nodup_append.1 hal.nd).1
        have hrep := (rep_plug (f :: c) (.leaf h' l')).1 hT.rep
        obtain ⟨⟨hf1, hsib, hcrep⟩, hleaf⟩ := hrep
        have hgf : s.get f.h = some (.inner f.p f.k (if f.right then f.sib.handle else h')
            (if f.right then h' else f.sib.handle)) := get_of_node hf1 (.inl ⟨_, _, _, _, rfl⟩)
        have hother : (if f.right then (if f.right then f.sib.handle else h')
            else (if f.right then h' else f.sib.handle)) = f.sib.handle := by cases f.right <;> rfl
        have hgs : s.get f.sib.handle = some f.sib.content := get_of_rep hsib
        obtain ⟨s1, e1, hi1, hroot1, hcnt1, hlen1, hold1⟩ := dealloc_spec hal hgs
        simp only [hgf, hother, e1, unwrap]
        simp only [List.nodup_cons, List.mem_cons, List.mem_append, not_or] at hnd
        obtain ⟨⟨hsh, hsf, hst, hsc⟩, ⟨hhf, hht, hhc⟩, ⟨hft, hfc⟩, htc⟩ := hnd
        have hsF : f.sib.handle ∉ F ∧ h' ∉ F ∧ f.h ∉ F := by
          have := (List.nodup_append.1 hal.nd).2.2
          refine ⟨fun hx => this _ (by simp) _ hx rfl, fun hx => this _ (by simp) _ hx rfl,
            fun hx => this _ (by simp) _ hx rfl⟩
        have hflt : f.h < s.nodes.length := hal.lt_len (by simp)
        -- after overwriting the parent
        generalize hs2 : ({ s1.put f.h f.sib.content with
            leafCount := wsub (s1.put f.h f.sib.content).leafCount 1 } : Slab) = s2
        have hn2 : s2.nodes = s1.nodes.set f.h f.sib.content := by rw [← hs2]; rfl
        have hr2 : s2.root = s1.root := by rw [← hs2]; rfl
        have hc2 : s2.leafCount = wsub s1.leafCount 1 := by rw [← hs2]; rfl
        have hb2 : s2.bumpIndex = s1.bumpIndex ∧ s2.freeLen = s1.freeLen ∧
          s2.freeHead = s1.freeHead := by rw [← hs2]; exact ⟨rfl, rfl, rfl⟩
        clear hs2
        have hi2 : AllocInv s2
            (h' :: f.h :: (f.sib.tailHandles ++ Ctx.handles c)) (f.sib.handle :: F) := by
          refine hi1.congr hb2.1 hb2.2.1 hb2.2.2 (by rw [hn2]; simp) ?_
          intro x hx
          rw [hn2, List.getElem?_set_ne]
          rintro rfl
          simp only [List.mem_cons] at hx
          rcases hx with hx | hx
          · exact hsf hx.symm
          · exact hsF.2.2 hx
        have hgh : s2.get h' = some (.leaf l') := by
          refine get_of_node ?_ (.inr ⟨_, rfl⟩)
          rw [hn2, List.getElem?_set_ne (fun e => hhf e.symm), hold1 h' (fun e => hsh e.symm)]
          exact hleaf
        obtain ⟨s3, e3, hi3, hroot3, hcnt3, hlen3, hold3⟩ := dealloc_spec hi2 hgh
        simp only [e3]
        have hwf := (wf_plug (f :: c) (.leaf h' l')).1 hT.wf
        obtain ⟨⟨hfp, hfk, hsw, hsk, hsok, hcw⟩, hlw, hlok⟩ := hwf
        have hnodes3 : ∀ x, x ≠ f.sib.handle → x ≠ h' → x ≠ f.h → s3.nodes[x]? = s.nodes[x]? := by
          intro x a b d
          rw [hold3 x b, hn2, List.getElem?_set_ne (fun e => d e.symm)]
          exact hold1 x a
        have hT3 : s3.RepT (plug c (f.sib.rehandle f.h)) (h' :: f.sib.handle :: F) := by
          refine ⟨?_, ?_, ?_, ?_, ?_⟩
          · rw [rep_plug]
            refine ⟨?_, ?_⟩
            · rw [Tree.rehandle_handle]
              refine hcrep.frame ?_
              intro x hx
              refine hnodes3 x ?_ ?_ ?_
              · rintro rfl; exact hsc hx
              · rintro rfl; exact hhc hx
              · rintro rfl; exact hfc hx
            · refine Tree.rep_rehandle hsib ?_ ?_
              · rw [hold3 f.h (fun e => hhf e.symm), hn2]
                rw [List.getElem?_set_self (by rw [hlen1]; exact hflt)]
              · intro x hx
                refine hnodes3 x ?_ ?_ ?_
                · rintro rfl; exact hst hx
                · rintro rfl; exact hht hx
                · rintro rfl; exact hft hx
          · rw [wf_plug]
            refine ⟨hcw, Tree.rehandle_wf _ hsw, ?_⟩
            rw [Tree.rehandle_keys]; exact hsok
          · rw [hroot3, hr2, hroot1, hT.root]
            show (plug c (f.fill _)).handle = _
            exact plug_handle c (by rw [Ctx.fill_handle, Tree.rehandle_handle])
          · rw [hcnt3, hc2]
            have hlen : (plug (f :: c) (.leaf h' l')).leaves.length =
                (plug c (f.sib.rehandle f.h)).leaves.length + 1 := by
              rw [leaves_plug, leaves_plug, Tree.rehandle_leaves]
              simp only [lefts, rights, Tree.leaves]
              cases f.right <;> simp <;> omega
            rw [hcnt1, hT.count, hlen, wsub_eq (by omega)]
            · omega
            · have h5 := hT.alloc.used_le
              have h6 := (plug (f :: c) (.leaf h' l')).handles_length
              have : s.cap ≤ u32Max := by unfold Slab.cap; omega
              unfold u32Max W64 at *; omega
          · refine hi3.perm ?_
            refine (handles_plug c _).trans ?_
            rw [Tree.rehandle_handles]
            refine List.perm_middle.trans (List.Perm.cons _ List.perm_append_comm)
        have hso := plug_sorted hT.wf
        simp only [Tree.leaves, List.append_assoc, List.singleton_append] at hso
        refine ⟨s3, ?_, .inr ⟨_, _, hT3⟩, ?_, ?_⟩
        · rw [hcont, leaves_plug, ← hk']
          simp only [Tree.leaves, List.append_assoc, List.singleton_append]
          rw [find_key hso]; rfl
        · rw [hT3.contents, hcont, leaves_plug, leaves_plug, ← hk']
          simp only [Tree.leaves, List.append_assoc, List.singleton_append]
          rw [filter_key_ne hso, Tree.rehandle_leaves]
          simp only [lefts, rights]
          cases f.right <;> simp
        · rw [hlen3, hn2, List.length_set, hlen1]
      · simp only [Tree.handle_node, bind, Except.bind, he]
        exact ⟨s, by rw [(habsent hn).1]; rfl, hself, (habsent hn).2.symm, rfl⟩

/-! ### Best order, quantity update, removal of the extremes -/

/-- A handle that designates order `l` between the orders `L` and `R`, and lets its quantity be
updated in place. -/
structure LeafHandle (s : Slab) (h : Nat) (l : Leaf) (L R : List Leaf) : Prop where
  leafAt : s.leafAt h = some l
  contents : s.contents = L ++ l :: R
  setQ : ∀ q, ∃ s', s.setQuantity h q = .ok s' ∧ SlabStep s s' (L ++ { l with quantity := q } :: R)

theorem leafHandle_of_plug {s : Slab} {c : Ctx} {h : Nat} {l : Leaf} {F : List Nat}
    (hs : s.RepT (plug c (.leaf h l)) F) : LeafHandle s h l (lefts c) (rights c) := by
  have hrep := ((rep_plug c (.leaf h l)).1 hs.rep).2
  have hl : s.leafAt h = some l := by
    unfold Slab.leafAt
    have := get_of_rep hrep
    simp only [Tree.handle, Tree.content] at this
    rw [this]
  refine ⟨hl, ?_, ?_⟩
  · rw [hs.contents, leaves_plug]; simp [Tree.leaves]
  · intro q
    refine ⟨_, ?_, put_leaf_spec hs (l' := { l with quantity := q }) rfl⟩
    unfold Slab.setQuantity; rw [hl]

/-- `find_min` returns the order with the least id. -/
theorem findMin_spec {s : Slab} (hs : s.Inv) :
    (s.contents = [] ∧ s.findMin = .ok none) ∨
    ∃ h l R, s.findMin = .ok (some h) ∧ LeafHandle s h l [] R := by
  rcases hs with ⟨F, h0, hal⟩ | ⟨t, F, hT⟩
  · left
    refine ⟨Slab.contents_empty h0, ?_⟩
    unfold Slab.findMin Slab.findMinMax Slab.rootHandle; simp [h0]
  · right
    obtain ⟨c, h, l, e, hl, he⟩ := minMax_min hT.rep hT.depth
    subst e
    refine ⟨h, l, rights c, ?_, hl ▸ leafHandle_of_plug hT⟩
    unfold Slab.findMin Slab.findMinMax
    rw [hT.rootHandle]; simp only [he]; rfl

/-- `find_max` returns the order with the greatest id. -/
theorem findMax_spec {s : Slab} (hs : s.Inv) :
    (s.contents = [] ∧ s.findMax = .ok none) ∨
    ∃ h l L, s.findMax = .ok (some h) ∧ LeafHandle s h l L [] := by
  rcases hs with ⟨F, h0, hal⟩ | ⟨t, F, hT⟩
  · left
    refine ⟨Slab.contents_empty h0, ?_⟩
    unfold Slab.findMax Slab.findMinMax Slab.rootHandle; simp [h0]
  · right
    obtain ⟨c, h, l, e, hl, he⟩ := minMax_max hT.rep hT.depth
    subst e
    refine ⟨h, l, lefts c, ?_, hl ▸ leafHandle_of_plug hT⟩
    unfold Slab.findMax Slab.findMinMax
    rw [hT.rootHandle]; simp only [he]; rfl

theorem LeafHandle.keyAt {s : Slab} {h : Nat} {l : Leaf} {L R : List Leaf}
    (hl : LeafHandle s h l L R) : s.keyAt h = some l.key := by
  have := hl.leafAt
  unfold Slab.leafAt at this
  unfold Slab.keyAt
  split at this <;> simp_all

/-- Removing an order designated by a handle. -/
theorem LeafHandle.remove {s : Slab} (hs : s.Inv) {h : Nat} {l : Leaf} {L R : List Leaf}
    (hl : LeafHandle s h l L R) :
    ∃ s', s.removeByKey l.key = .ok (s', some l) ∧ SlabStep s s' (L ++ R) := by
  obtain ⟨s', e, hstep⟩ := removeByKey_spec hs l.key
  have hso := hs.sorted
  rw [hl.contents] at hso
  rw [hl.contents, find_key hso] at e
  rw [hl.contents, filter_key_ne hso] at hstep
  exact ⟨s', e, hstep⟩

/-- `remove_min`. -/
theorem removeMin_spec {s : Slab} (hs : s.Inv) :
    ∃ s', s.removeMin = .ok (s', s.contents.head?) ∧ SlabStep s s' s.contents.tail := by
  unfold Slab.removeMin
  rcases findMin_spec hs with ⟨h0, e⟩ | ⟨h, l, R, e, hl⟩
  · refine ⟨s, by simp only [bind, Except.bind, e, h0]; rfl, hs, by simp [h0], rfl⟩
  · obtain ⟨s', e', hstep⟩ := hl.remove hs
    refine ⟨s', ?_, ?_⟩
    · simp only [bind, Except.bind, e, hl.keyAt, hl.contents]; exact e'
    · rw [hl.contents]; exact hstep

/-- `remove_max`. -/
theorem removeMax_spec {s : Slab} (hs : s.Inv) :
    ∃ s', s.removeMax = .ok (s', s.contents.getLast?) ∧ SlabStep s s' s.contents.dropLast := by
  unfold Slab.removeMax
  rcases findMax_spec hs with ⟨h0, e⟩ | ⟨h, l, L, e, hl⟩
  · refine ⟨s, by simp only [bind, Except.bind, e, h0]; rfl, hs, by simp [h0], rfl⟩
  · obtain ⟨s', e', hstep⟩ := hl.remove hs
    refine ⟨s', ?_, ?_⟩
    · simp only [bind, Except.bind, e, hl.keyAt, hl.contents]
      rw [e']; simp
    · rw [hl.contents]; simpa using hstep

/-! ### `find_by` -/

/-- The nodes a tree contributes to the search, in visiting order (right child first): `none` for
an inner node. -/
def Tree.visit : Tree → List (Option Leaf)
  | .leaf _ l => [some l]
  | .node _ _ _ l r => none :: (r.visit ++ l.visit)

theorem Tree.visit_length (t : Tree) : t.visit.length + 1 = 2 * t.leaves.length := by
  induction t with
  | leaf => simp [Tree.visit, Tree.leaves]
  | node h p k l r ihl ihr => simp [Tree.visit, Tree.leaves]; omega

theorem Tree.visit_leaves (t : Tree) : t.visit.filterMap id = t.leaves.reverse := by
  induction t with
  | leaf => simp [Tree.visit, Tree.leaves]
  | node h p k l r ihl ihr => simp [Tree.visit, Tree.leaves, ihl, ihr]

theorem findByLoop_eq {s : Slab} (pred : Leaf → Bool) (limit : Nat) (ts : List Tree)
    (hr : ∀ t ∈ ts, t.Rep s.nodes) :
    s.findByLoop pred limit (ts.map (·.handle)) =
      ((((ts.flatMap Tree.visit).take limit).filterMap id |>.filter pred).map (·.key),
        limit - (ts.flatMap Tree.visit).length) := by
  induction limit generalizing ts with
  | zero => cases ts <;> simp [Slab.findByLoop]
  | succ n ih =>
    cases ts with
    | nil => simp [Slab.findByLoop]
    | cons t ts =>
      have hg := get_of_rep (hr t (by simp))
      simp only [List.map_cons, Slab.findByLoop, hg]
      cases t with
      | leaf h l =>
        simp only [Tree.content]
        have := ih ts (fun t ht => hr t (by simp [ht]))
        rw [this]
        simp only [List.flatMap_cons, Tree.visit, List.singleton_append, List.take_succ_cons,
          List.filterMap_cons, id, List.length_cons, Nat.add_sub_add_right, List.filter_cons]
        split <;> simp
      | node h p k l r =>
        simp only [Tree.content]
        have h0 := hr _ (List.mem_cons_self ..)
        have := ih (r :: l :: ts) (by
          intro t ht
          simp only [List.mem_cons] at ht
          rcases ht with rfl | rfl | ht
          · exact h0.2.2
          · exact h0.2.1
          · exact hr t (by simp [ht]))
        simp only [List.map_cons] at this
        rw [this]
        simp [Tree.visit]

/-- Specification of `find_by`: an initial part of the matching orders, in descending id order,
all of them once the limit covers the `2·n − 1` nodes. -/
theorem findBy_spec {s : Slab} (hs : s.Inv) (limit : Nat) (pred : Leaf → Bool) :
    (s.findBy limit pred).2 ≤ limit ∧
    (∃ rest, ((s.contents.reverse.filter pred).map (·.key)) = (s.findBy limit pred).1 ++ rest) ∧
    (2 * s.contents.length ≤ limit + 1 →
      (s.findBy limit pred).1 = ((s.contents.reverse.filter pred).map (·.key))) := by
  rcases hs with ⟨F, h0, hal⟩ | ⟨t, F, hT⟩
  · have hc0 := Slab.contents_empty h0
    have hr0 : s.rootHandle = none := by unfold Slab.rootHandle; simp [h0]
    simp [Slab.findBy, hr0, hc0]
  · unfold Slab.findBy
    rw [hT.rootHandle]
    have := findByLoop_eq (s := s) pred limit [t] (by simpa using hT.rep)
    simp only [List.map_cons, List.map_nil, List.flatMap_cons, List.flatMap_nil, List.append_nil] at this
    simp only [this, hT.contents]
    refine ⟨by omega, ?_, ?_⟩
    · refine ⟨(((t.visit.drop limit).filterMap id).filter pred).map (·.key), ?_⟩
      rw [← Tree.visit_leaves, ← List.map_append, ← List.filter_append, ← List.filterMap_append,
        List.take_append_drop]
    · intro h
      have := t.visit_length
      rw [List.take_of_length_le (by omega), Tree.visit_leaves]

/-! ### A fresh slab -/

theorem fresh_inv (n : Nat) : (Slab.fresh n).Inv := by
  left
  refine ⟨[], rfl, trivial, rfl, by simp, by simp, by simp [Slab.fresh], by simp [Slab.fresh]⟩

theorem fresh_contents (n : Nat) : (Slab.fresh n).contents = [] := rfl

end Serum
