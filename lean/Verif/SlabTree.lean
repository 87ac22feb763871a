import Verif.SlabBits

/-!
Abstract crit-bit trees (with node handles), one-hole contexts, and the relation between a slab's
node array and a tree plus a free list.
-/

namespace Serum

/-- A crit-bit tree whose nodes remember their handle in the slab. -/
inductive Tree where
  | leaf (h : Nat) (l : Leaf)
  | node (h p k : Nat) (l r : Tree)

namespace Tree

def handle : Tree → Nat
  | leaf h _ => h
  | node h _ _ _ _ => h

def handles : Tree → List Nat
  | leaf h _ => [h]
  | node h _ _ l r => h :: (l.handles ++ r.handles)

def leaves : Tree → List Leaf
  | leaf _ l => [l]
  | node _ _ _ l r => l.leaves ++ r.leaves

def keys (t : Tree) : List Nat := t.leaves.map (·.key)

/-- The node stored at the root handle. -/
def content : Tree → Node
  | leaf _ l => .leaf l
  | node _ p k l r => .inner p k l.handle r.handle

/-- Move the root to another handle. -/
def rehandle (h' : Nat) : Tree → Tree
  | leaf _ l => leaf h' l
  | node _ p k l r => node h' p k l r

/-- The node array stores the tree. -/
def Rep (nodes : List Node) : Tree → Prop
  | leaf h l => nodes[h]? = some (.leaf l)
  | node h p k l r => nodes[h]? = some (.inner p k l.handle r.handle) ∧ l.Rep nodes ∧ r.Rep nodes

/-- Crit-bit tree invariant. -/
def WF : Tree → Prop
  | leaf _ l => l.key < 2 ^ 128
  | node _ p k l r =>
    p < 128 ∧ k < 2 ^ 128 ∧
    (∀ x ∈ l.keys, pre p x = pre p k ∧ critBit p x = false) ∧
    (∀ x ∈ r.keys, pre p x = pre p k ∧ critBit p x = true) ∧ l.WF ∧ r.WF

def depth : Tree → Nat
  | leaf _ _ => 1
  | node _ _ _ l r => 1 + max l.depth r.depth

theorem depth_le (t : Tree) : t.depth ≤ t.handles.length := by
  induction t with
  | leaf => simp [depth, handles]
  | node h p k l r ihl ihr => simp [depth, handles]; omega

theorem handle_mem (t : Tree) : t.handle ∈ t.handles := by
  cases t <;> simp [handle, handles]

theorem leaves_ne_nil (t : Tree) : t.leaves ≠ [] := by
  induction t with
  | leaf => simp [leaves]
  | node h p k l r ihl ihr => simp [leaves, ihl]

theorem leaves_pos (t : Tree) : 0 < t.leaves.length :=
  List.length_pos_iff.2 t.leaves_ne_nil

theorem handles_length (t : Tree) : t.handles.length + 1 = 2 * t.leaves.length := by
  induction t with
  | leaf => simp [handles, leaves]
  | node h p k l r ihl ihr => simp [handles, leaves]; omega

theorem Rep.content {nodes : List Node} {t : Tree} (h : t.Rep nodes) :
    nodes[t.handle]? = some t.content := by
  cases t with
  | leaf => exact h
  | node => exact h.1

theorem Rep.frame {nodes nodes' : List Node} {t : Tree} (h : t.Rep nodes)
    (hf : ∀ x ∈ t.handles, nodes'[x]? = nodes[x]?) : t.Rep nodes' := by
  induction t with
  | leaf h' l => simp only [Rep] at *; rw [hf h' (by simp [handles])]; exact h
  | node h' p k l r ihl ihr =>
    refine ⟨?_, ?_, ?_⟩
    · rw [hf h' (by simp [handles])]; exact h.1
    · exact ihl h.2.1 (fun x hx => hf x (by simp [handles, hx]))
    · exact ihr h.2.2 (fun x hx => hf x (by simp [handles, hx]))

theorem keys_node (h p k : Nat) (l r : Tree) : (node h p k l r).keys = l.keys ++ r.keys := by
  simp [keys, leaves]

theorem WF.key_lt {t : Tree} (h : t.WF) : ∀ x ∈ t.keys, x < 2 ^ 128 := by
  induction t with
  | leaf h' l => intro x hx; simp [keys, leaves] at hx; subst hx; exact h
  | node h' p k l r ihl ihr =>
    intro x hx
    rw [keys_node, List.mem_append] at hx
    obtain ⟨_, _, _, _, hl, hr⟩ := h
    rcases hx with hx | hx
    · exact ihl hl x hx
    · exact ihr hr x hx

/-- Left-to-right order is ascending key order. -/
theorem WF.sorted {t : Tree} (h : t.WF) : t.keys.Pairwise (· < ·) := by
  induction t with
  | leaf => simp [keys, leaves]
  | node h' p k l r ihl ihr =>
    obtain ⟨hp, _, h1, h2, hl, hr⟩ := h
    rw [keys_node, List.pairwise_append]
    refine ⟨ihl hl, ihr hr, fun a ha b hb => ?_⟩
    have ha := h1 a ha
    have hb := h2 b hb
    exact lt_of_critBit hp (ha.1.trans hb.1.symm) ha.2 hb.2

theorem rehandle_leaves (h' : Nat) (t : Tree) : (t.rehandle h').leaves = t.leaves := by
  cases t <;> rfl
theorem rehandle_keys (h' : Nat) (t : Tree) : (t.rehandle h').keys = t.keys := by
  unfold keys; rw [rehandle_leaves]
theorem rehandle_handle (h' : Nat) (t : Tree) : (t.rehandle h').handle = h' := by cases t <;> rfl
theorem rehandle_content (h' : Nat) (t : Tree) : (t.rehandle h').content = t.content := by
  cases t <;> rfl
theorem rehandle_wf (h' : Nat) {t : Tree} (h : t.WF) : (t.rehandle h').WF := by cases t <;> exact h

/-- The handles below the root. -/
def tailHandles : Tree → List Nat
  | leaf _ _ => []
  | node _ _ _ l r => l.handles ++ r.handles

theorem handles_eq (t : Tree) : t.handles = t.handle :: t.tailHandles := by cases t <;> rfl
theorem rehandle_handles (h' : Nat) (t : Tree) : (t.rehandle h').handles = h' :: t.tailHandles := by
  cases t <;> rfl

theorem rep_rehandle {nodes nodes' : List Node} {t : Tree} {h' : Nat} (h : t.Rep nodes)
    (h1 : nodes'[h']? = some t.content) (hf : ∀ x ∈ t.tailHandles, nodes'[x]? = nodes[x]?) :
    (t.rehandle h').Rep nodes' := by
  cases t with
  | leaf => exact h1
  | node a p k l r =>
    refine ⟨h1, h.2.1.frame fun x hx => hf x ?_, h.2.2.frame fun x hx => hf x ?_⟩ <;>
      simp [tailHandles, hx]

end Tree

/-- One layer of a one-hole context; `right` says whether the hole is the right child. -/
structure Frame where
  right : Bool
  h : Nat
  p : Nat
  k : Nat
  sib : Tree

def Frame.fill (f : Frame) (t : Tree) : Tree :=
  if f.right then .node f.h f.p f.k f.sib t else .node f.h f.p f.k t f.sib

/-- Innermost frame first. -/
abbrev Ctx := List Frame

namespace Ctx

def plug : Ctx → Tree → Tree
  | [], t => t
  | f :: c, t => plug c (f.fill t)

def Rep (nodes : List Node) : Ctx → Nat → Prop
  | [], _ => True
  | f :: c, h =>
    nodes[f.h]? = some (.inner f.p f.k (if f.right then f.sib.handle else h)
      (if f.right then h else f.sib.handle)) ∧ f.sib.Rep nodes ∧ Rep nodes c f.h

def handles : Ctx → List Nat
  | [] => []
  | f :: c => f.h :: (f.sib.handles ++ handles c)

def lefts : Ctx → List Leaf
  | [] => []
  | f :: c => lefts c ++ (if f.right then f.sib.leaves else [])

def rights : Ctx → List Leaf
  | [] => []
  | f :: c => (if f.right then [] else f.sib.leaves) ++ rights c

/-- A key that belongs in the hole. -/
def ok (c : Ctx) (x : Nat) : Prop := ∀ f ∈ c, pre f.p x = pre f.p f.k ∧ critBit f.p x = f.right

def WF : Ctx → Prop
  | [] => True
  | f :: c => f.p < 128 ∧ f.k < 2 ^ 128 ∧ f.sib.WF ∧
    (∀ x ∈ f.sib.keys, pre f.p x = pre f.p f.k ∧ critBit f.p x = !f.right) ∧
    (∀ x ∈ f.sib.keys, ok c x) ∧ WF c

theorem fill_handle (f : Frame) (t : Tree) : (f.fill t).handle = f.h := by
  unfold Frame.fill; split <;> rfl

theorem plug_handle (c : Ctx) {t t' : Tree} (h : t.handle = t'.handle) :
    (plug c t).handle = (plug c t').handle := by
  induction c generalizing t t' with
  | nil => exact h
  | cons f c ih => exact ih (by rw [fill_handle, fill_handle])

theorem rep_plug {nodes : List Node} (c : Ctx) (t : Tree) :
    (plug c t).Rep nodes ↔ Rep nodes c t.handle ∧ t.Rep nodes := by
  induction c generalizing t with
  | nil => simp [plug, Rep]
  | cons f c ih =>
    simp only [plug, ih, fill_handle, Rep]
    unfold Frame.fill
    cases hr : f.right <;> simp [Tree.Rep] <;> constructor <;> (intro h; simp_all)

theorem handles_plug (c : Ctx) (t : Tree) : (plug c t).handles.Perm (handles c ++ t.handles) := by
  induction c generalizing t with
  | nil => simp [plug, handles]
  | cons f c ih =>
    refine (ih _).trans ?_
    simp only [handles]
    have h1 : (f.fill t).handles.Perm (f.h :: (f.sib.handles ++ t.handles)) := by
      unfold Frame.fill
      cases f.right
      · simp only [Bool.false_eq_true, if_false, Tree.handles]
        exact (List.perm_append_comm).cons _
      · simp only [if_true, Tree.handles]; exact List.Perm.refl _
    refine (h1.append_left _).trans ?_
    refine List.perm_middle.trans ?_
    rw [List.cons_append]
    refine List.Perm.cons _ ?_
    rw [← List.append_assoc]
    exact List.perm_append_comm.append_right _

theorem leaves_plug (c : Ctx) (t : Tree) : (plug c t).leaves = lefts c ++ t.leaves ++ rights c := by
  induction c generalizing t with
  | nil => simp [plug, lefts, rights]
  | cons f c ih =>
    simp only [plug, ih, lefts, rights]
    unfold Frame.fill
    cases f.right <;> simp [Tree.leaves]

theorem wf_plug (c : Ctx) (t : Tree) :
    (plug c t).WF ↔ WF c ∧ t.WF ∧ ∀ x ∈ t.keys, ok c x := by
  induction c generalizing t with
  | nil => simp [plug, WF, ok]
  | cons f c ih =>
    simp only [plug, ih, WF]
    have hok : ∀ x, ok (f :: c) x ↔ (pre f.p x = pre f.p f.k ∧ critBit f.p x = f.right) ∧ ok c x := by
      intro x; simp [ok]
    simp only [hok]
    unfold Frame.fill
    cases hr : f.right with
    | false =>
      simp only [Bool.false_eq_true, if_false, Tree.WF, Tree.keys_node, List.mem_append]
      constructor
      · rintro ⟨h1, ⟨h2, h3, h4, h5, h6, h7⟩, h8⟩
        exact ⟨⟨h2, h3, h7, h5, fun x hx => h8 x (.inr hx), h1⟩, h6,
          fun x hx => ⟨h4 x hx, h8 x (.inl hx)⟩⟩
      · rintro ⟨⟨h2, h3, h7, h5, h9, h1⟩, h6, h10⟩
        exact ⟨h1, ⟨h2, h3, fun x hx => (h10 x hx).1, h5, h6, h7⟩,
          fun x hx => hx.elim (fun hx => (h10 x hx).2) (h9 x)⟩
    | true =>
      simp only [if_true, Tree.WF, Tree.keys_node, List.mem_append]
      constructor
      · rintro ⟨h1, ⟨h2, h3, h4, h5, h6, h7⟩, h8⟩
        exact ⟨⟨h2, h3, h6, h4, fun x hx => h8 x (.inl hx), h1⟩, h7,
          fun x hx => ⟨h5 x hx, h8 x (.inr hx)⟩⟩
      · rintro ⟨⟨h2, h3, h6, h4, h9, h1⟩, h7, h10⟩
        exact ⟨h1, ⟨h2, h3, h4, fun x hx => (h10 x hx).1, h6, h7⟩,
          fun x hx => hx.elim (h9 x) (fun hx => (h10 x hx).2)⟩

theorem Rep.frame {nodes nodes' : List Node} {c : Ctx} {h : Nat} (hr : Rep nodes c h)
    (hf : ∀ x ∈ handles c, nodes'[x]? = nodes[x]?) : Rep nodes' c h := by
  induction c generalizing h with
  | nil => trivial
  | cons f c ih =>
    refine ⟨?_, ?_, ?_⟩
    · rw [hf f.h (by simp [handles])]; exact hr.1
    · exact hr.2.1.frame fun x hx => hf x (by simp [handles, hx])
    · exact ih hr.2.2 fun x hx => hf x (by simp [handles, hx])

end Ctx

/-! ### Free list and allocation -/

/-- The free list starting at `h` visits exactly the handles in the list. -/
def FreeList (nodes : List Node) : Nat → List Nat → Prop
  | _, [] => True
  | h, x :: xs => h = x ∧
    ∃ n, nodes[x]? = some (if xs = [] then .lastFree n else .free n) ∧ FreeList nodes n xs

theorem FreeList.frame {nodes nodes' : List Node} {h : Nat} {F : List Nat}
    (hl : FreeList nodes h F) (hf : ∀ x ∈ F, nodes'[x]? = nodes[x]?) : FreeList nodes' h F := by
  induction F generalizing h with
  | nil => trivial
  | cons x xs ih =>
    obtain ⟨h1, n, h2, h3⟩ := hl
    exact ⟨h1, n, by rw [hf x (by simp)]; exact h2, ih h3 fun y hy => hf y (by simp [hy])⟩

/-- Number of usable nodes. -/
def Slab.cap (s : Slab) : Nat := min s.nodes.length u32Max

/-- Every node below the bump index is either in use or on the free list, exactly once. -/
structure AllocInv (s : Slab) (used F : List Nat) : Prop where
  fl : FreeList s.nodes s.freeHead F
  len : F.length = s.freeLen
  nd : (used ++ F).Nodup
  lt : ∀ h ∈ used ++ F, h < s.bumpIndex
  cnt : used.length + F.length = s.bumpIndex
  bump : s.bumpIndex ≤ s.cap

theorem AllocInv.perm {s : Slab} {used used' F : List Nat} (h : AllocInv s used F)
    (hp : used'.Perm used) : AllocInv s used' F where
  fl := h.fl
  len := h.len
  nd := ((hp.append_right F).nodup_iff).2 h.nd
  lt := fun x hx => h.lt x ((hp.append_right F).mem_iff.1 hx)
  cnt := by rw [hp.length_eq]; exact h.cnt
  bump := h.bump

/-- Changing live nodes, the root or the leaf count does not affect allocation. -/
theorem AllocInv.congr {s s' : Slab} {used F : List Nat} (h : AllocInv s used F)
    (h1 : s'.bumpIndex = s.bumpIndex) (h2 : s'.freeLen = s.freeLen) (h3 : s'.freeHead = s.freeHead)
    (h4 : s'.nodes.length = s.nodes.length) (hf : ∀ x ∈ F, s'.nodes[x]? = s.nodes[x]?) :
    AllocInv s' used F where
  fl := by rw [h3]; exact h.fl.frame hf
  len := by rw [h2]; exact h.len
  nd := h.nd
  lt := by rw [h1]; exact h.lt
  cnt := by rw [h1]; exact h.cnt
  bump := by unfold Slab.cap; rw [h1, h4]; exact h.bump

theorem AllocInv.used_le {s : Slab} {used F : List Nat} (h : AllocInv s used F) :
    used.length ≤ s.cap := by have := h.cnt; have := h.bump; omega

theorem AllocInv.lt_len {s : Slab} {used F : List Nat} (h : AllocInv s used F) {x : Nat}
    (hx : x ∈ used ++ F) : x < s.nodes.length := by
  have := h.lt x hx; have := h.bump; unfold Slab.cap at *; omega

/-- Allocation succeeds exactly while fewer than `cap` nodes are in use. -/
theorem alloc_spec {s : Slab} {used F : List Nat} (h : AllocInv s used F) (n : Node) :
    if used.length < s.cap then
      ∃ x s' F', s.alloc n = .ok (some (x, s')) ∧ x ∉ used ∧ AllocInv s' (x :: used) F' ∧
        s'.nodes = s.nodes.set x n ∧ s'.root = s.root ∧ s'.leafCount = s.leafCount
    else s.alloc n = .ok none := by
  have hlen := h.len; have hcnt := h.cnt; have hbump := h.bump
  have hu32 : s.cap ≤ u32Max := by unfold Slab.cap; omega
  have hnl : s.cap ≤ s.nodes.length := by unfold Slab.cap; omega
  unfold Slab.alloc
  cases F with
  | nil =>
    simp only [List.length_nil] at hlen hcnt
    have hz : (s.freeLen == 0) = true := by simp [← hlen]
    rw [if_pos hz]
    split
    · rename_i hlt
      have e1 : (s.bumpIndex == s.nodes.length) = false := by simp; omega
      have e2 : (s.bumpIndex == u32Max) = false := by simp; omega
      simp only [e1, e2, Bool.false_eq_true, if_false]
      have hw : wadd s.bumpIndex 1 = s.bumpIndex + 1 := wadd_eq (by unfold u32Max W64 at *; omega)
      refine ⟨s.bumpIndex, _, [], rfl, ?_, ?_, rfl, rfl, rfl⟩
      · intro hm
        have := h.lt s.bumpIndex (by simp [hm]); omega
      · refine ⟨trivial, by simpa using hlen, ?_, ?_, ?_, ?_⟩
        · have := h.nd
          simp only [List.append_nil] at this ⊢
          refine List.nodup_cons.2 ⟨?_, this⟩
          intro hm
          have := h.lt s.bumpIndex (by simp [hm]); omega
        · intro x hx
          simp only [hw]
          simp only [List.append_nil, List.mem_cons] at hx
          rcases hx with hx | hx
          · omega
          · have := h.lt x (by simp [hx]); omega
        · simp only [hw, List.length_cons, List.length_nil]; omega
        · simp only [hw, Slab.cap, List.length_set] at *; omega
    · rename_i hge
      by_cases e1 : s.bumpIndex = s.nodes.length
      · simp [e1]
      · have e2 : s.bumpIndex = u32Max := by unfold Slab.cap at *; omega
        simp [e2]
  | cons x xs =>
    simp only [List.length_cons] at hlen hcnt
    have hz : (s.freeLen == 0) = false := by simp; omega
    rw [if_pos (show used.length < s.cap by omega), if_neg (by simp [hz])]
    obtain ⟨h1, m, h2, h3⟩ := h.fl
    rw [h1]
    have hx_used : x ∉ used := by
      intro hm
      have := h.nd
      rw [List.nodup_append] at this
      exact this.2.2 x hm x (by simp) rfl
    have hxs : x ∉ xs := by
      have := h.nd
      rw [List.nodup_append] at this
      exact (List.nodup_cons.1 this.2.1).1
    have hws : wsub s.freeLen 1 = xs.length := by
      rw [wsub_eq (by omega) (by unfold u32Max W64 at *; omega)]; omega
    have hinv : AllocInv { s with
        freeHead := m
        freeLen := wsub s.freeLen 1
        nodes := s.nodes.set x n } (x :: used) xs := by
      refine ⟨?_, ?_, ?_, ?_, ?_, ?_⟩
      · refine h3.frame fun y hy => ?_
        show (s.nodes.set x n)[y]? = _
        rw [List.getElem?_set_ne]; intro e; subst e; exact hxs hy
      · simp [hws]
      · have := h.nd
        have hp : (used ++ x :: xs).Perm (x :: used ++ xs) := List.perm_middle
        exact hp.nodup_iff.1 this
      · intro y hy
        apply h.lt y
        have hp : (used ++ x :: xs).Perm (x :: used ++ xs) := List.perm_middle
        exact hp.mem_iff.2 hy
      · simp only [List.length_cons]; omega
      · simp only [Slab.cap, List.length_set]; exact h.bump
    cases xs with
    | nil =>
      simp only [List.length_nil] at hlen
      simp only [if_true] at h2
      rw [h2]
      have h1' : (s.freeLen == 1) = true := by simp; omega
      simp only [h1', if_true]
      exact ⟨x, _, [], rfl, hx_used, hinv, rfl, rfl, rfl⟩
    | cons y ys =>
      simp only [reduceCtorEq, if_false] at h2
      rw [h2]
      simp only [List.length_cons] at hlen
      have : s.freeLen > 1 := by omega
      simp only [this, if_true]
      exact ⟨x, _, y :: ys, rfl, hx_used, hinv, rfl, rfl, rfl⟩

theorem get_of_node {s : Slab} {h : Nat} {n : Node} (hn : s.nodes[h]? = some n)
    (ht : (∃ p k a b, n = .inner p k a b) ∨ ∃ l, n = .leaf l) : s.get h = some n := by
  unfold Slab.get
  rw [hn]
  rcases ht with ⟨p, k, a, b, rfl⟩ | ⟨l, rfl⟩ <;> rfl

theorem content_live (t : Tree) :
    (∃ p k a b, t.content = .inner p k a b) ∨ ∃ l, t.content = .leaf l := by
  cases t with
  | leaf h l => exact .inr ⟨l, rfl⟩
  | node h p k l r => exact .inl ⟨p, k, _, _, rfl⟩

theorem get_of_rep {s : Slab} {t : Tree} (h : t.Rep s.nodes) : s.get t.handle = some t.content :=
  get_of_node h.content (content_live t)

/-- Freeing a live node. -/
theorem dealloc_spec {s : Slab} {x : Nat} {used F : List Nat} (h : AllocInv s (x :: used) F)
    {n : Node} (hn : s.get x = some n) :
    ∃ s', s.dealloc x = some (n, s') ∧ AllocInv s' used (x :: F) ∧
      s'.root = s.root ∧ s'.leafCount = s.leafCount ∧ s'.nodes.length = s.nodes.length ∧
      (∀ y, y ≠ x → s'.nodes[y]? = s.nodes[y]?) := by
  have hlen := h.len; have hcnt := h.cnt; have hbump := h.bump
  have hu32 : s.cap ≤ u32Max := by unfold Slab.cap; omega
  have hxlen : x < s.nodes.length := h.lt_len (by simp)
  simp only [List.length_cons] at hcnt
  have hxF : x ∉ F := by
    intro hm
    have := h.nd
    rw [List.nodup_append] at this
    exact this.2.2 x (by simp) x hm rfl
  have hw : wadd s.freeLen 1 = F.length + 1 := by
    rw [wadd_eq (by unfold u32Max W64 at *; omega)]; omega
  unfold Slab.dealloc
  rw [hn]
  refine ⟨_, rfl, ?_, rfl, rfl, by simp, ?_⟩
  · refine ⟨⟨rfl, s.freeHead, ?_, ?_⟩, ?_, ?_, ?_, ?_, ?_⟩
    · simp only
      rw [List.getElem?_set_self hxlen]
      cases F with
      | nil => simp only [List.length_nil] at hlen; simp [← hlen]
      | cons y ys =>
        simp only [List.length_cons] at hlen
        have : (s.freeLen == 0) = false := by simp; omega
        simp [this]
    · refine h.fl.frame fun y hy => ?_
      simp only
      rw [List.getElem?_set_ne]; intro e; subst e; exact hxF hy
    · simp only [hw, List.length_cons]
    · have hp : (used ++ x :: F).Perm (x :: used ++ F) := List.perm_middle
      exact hp.nodup_iff.2 h.nd
    · intro y hy
      have hp : (used ++ x :: F).Perm (x :: used ++ F) := List.perm_middle
      exact h.lt y (hp.mem_iff.1 hy)
    · simp only [List.length_cons]; omega
    · simp only [Slab.cap, List.length_set]; exact h.bump
  · intro y hy
    simp only
    rw [List.getElem?_set_ne (fun e => hy e.symm)]

end Serum
