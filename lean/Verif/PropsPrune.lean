import Verif.PropsCan
import Verif.PropsWalk

/-!
C128: how far a prune gets with its limit. It works through the asks and then the bids, each from the highest order id down,
and pays one unit of the limit for each node of the search trees.
-/

namespace Serum.Props

/-- The number of nodes of a search tree of `n` orders. -/
def nodesFor (n : Nat) : Nat := if n = 0 then 0 else 2 * n - 1

/-- The number of resting orders of others. -/
def strangers (s : State conc) (sd : Side) (a : Nat) : Nat := ((resting s sd).filter fun l => l.owner != a).length

/-- What a prune of the orders of `a` with a limit does: `ls` are the orders withdrawn. -/
structure Reached (s : State conc) (a limit : Nat) (ls : List (Side × Leaf)) : Prop where
  /-- On each side, from the highest order id down. -/
  top : ∀ sd x y, (sd, x) ∈ ls → y ∈ resting s sd → y.owner = a → x.key ≤ y.key → (sd, y) ∈ ls
  /-- The asks come first. -/
  asksFirst : ∀ x, (Side.bid, x) ∈ ls → ∀ y ∈ resting s .ask, y.owner = a → (Side.ask, y) ∈ ls
  /-- Enough for the asks. -/
  asks : nodesFor (resting s .ask).length ≤ limit → ∀ y ∈ resting s .ask, y.owner = a → (Side.ask, y) ∈ ls
  /-- Enough for everything. -/
  all : nodesFor (resting s .ask).length + nodesFor (resting s .bid).length ≤ limit →
    ∀ sd, ∀ y ∈ resting s sd, y.owner = a → (sd, y) ∈ ls
  /-- No less is enough for the lowest ask. -/
  lastAsk : ∀ x, (Side.ask, x) ∈ ls → (∀ y ∈ resting s .ask, x.key ≤ y.key) → nodesFor (resting s .ask).length ≤ limit
  /-- No less is enough for the lowest bid. -/
  lastBid : ∀ x, (Side.bid, x) ∈ ls → (∀ y ∈ resting s .bid, x.key ≤ y.key) →
    nodesFor (resting s .ask).length + nodesFor (resting s .bid).length ≤ limit
  /-- Each order withdrawn costs a unit. -/
  few : ls.length ≤ limit
  /-- Nothing is found only if there is nothing or the orders of others use up the limit. -/
  progress : 2 * (strangers s .ask a + strangers s .bid a) + 128 < limit →
    (∃ sd, ∃ y ∈ resting s sd, y.owner = a) → ls ≠ []

theorem visit_last (t : Tree) : ∃ i l, t.visit = i ++ [some l] := by
  induction t with
  | leaf h l => exact ⟨[], l, rfl⟩
  | node h p k l r ihl _ =>
    obtain ⟨i, x, e⟩ := ihl
    exact ⟨none :: (r.visit ++ i), x, by simp [Tree.visit, e]⟩

/-- What `find_by` finds and leaves of its limit, for the orders of an account. -/
structure Found (L : List Leaf) (p : Leaf → Bool) (n : Nat) (r : List Nat × Nat) : Prop where
  top : ∀ x ∈ L, ∀ y ∈ L, x.key ∈ r.1 → p y = true → x.key ≤ y.key → y.key ∈ r.1
  all : nodesFor L.length ≤ n → ∀ y ∈ L, p y = true → y.key ∈ r.1
  last : ∀ x ∈ L, x.key ∈ r.1 → (∀ y ∈ L, x.key ≤ y.key) → nodesFor L.length ≤ n
  few : r.1.length ≤ min n (nodesFor L.length)
  rest : r.2 = n - nodesFor L.length
  mem : ∀ k ∈ r.1, ∃ x ∈ L, x.key = k
  some : 2 * (L.filter fun l => !p l).length + 128 < n → (∃ y ∈ L, p y = true) → r.1 ≠ []

/-- Few of the nodes met are not orders. -/
theorem visit_take (t : Tree) : ∀ k, (t.visit.take k).length + 1 ≤ 2 * ((t.visit.take k).filterMap id).length + t.depth := by
  induction t with
  | leaf h l =>
    intro k
    cases k with
    | zero => simp [Tree.depth]
    | succ k => simp [Tree.visit, Tree.depth]
  | node h p k l r ihl ihr =>
    intro n
    cases n with
    | zero => simp [Tree.depth]
    | succ n =>
      have h1 := ihl (n - r.visit.length)
      have h2 := ihr n
      have h3 := r.visit_length
      have h4 : (r.visit.filterMap id).length = r.leaves.length := by rw [r.visit_leaves]; simp
      simp only [Tree.visit, Tree.depth, List.take_succ_cons, List.length_cons, List.filterMap_cons, id]
      rw [List.take_append, List.filterMap_append, List.length_append, List.length_append]
      by_cases hle : r.visit.length ≤ n
      · rw [List.take_of_length_le hle]
        omega
      · have e : n - r.visit.length = 0 := by omega
        rw [e]
        simp only [List.take_zero, List.filterMap_nil, List.length_nil]
        omega

theorem prefix_top {L : List Leaf} (hL : L.Pairwise fun a b => a.key < b.key) {p : Leaf → Bool} {ks rest : List Nat}
    (h : (L.reverse.filter p).map (·.key) = ks ++ rest) {x y : Leaf} (hy : y ∈ L) (hp : p y = true)
    (hk : x.key ∈ ks) (hle : x.key ≤ y.key) : y.key ∈ ks := by
  have hsort : (ks ++ rest).Pairwise (· > ·) := by
    rw [← h]
    refine List.pairwise_map.2 (List.Pairwise.filter _ ?_)
    exact List.pairwise_reverse.2 hL
  have hm : y.key ∈ ks ++ rest := by
    rw [← h]
    exact List.mem_map.2 ⟨y, List.mem_filter.2 ⟨by simpa using hy, hp⟩, rfl⟩
  rcases List.mem_append.1 hm with g | g
  · exact g
  · have := (List.pairwise_append.1 hsort).2.2 _ hk _ g
    omega

theorem findBy_found {s : Slab} (hs : s.Inv) (n : Nat) (p : Leaf → Bool) : Found s.contents p n (s.findBy n p) := by
  obtain ⟨_, ⟨rest, h2⟩, h3⟩ := findBy_spec hs n p
  have top : ∀ x ∈ s.contents, ∀ y ∈ s.contents, x.key ∈ (s.findBy n p).1 → p y = true → x.key ≤ y.key →
      y.key ∈ (s.findBy n p).1 := fun x _ y hy hk hp hle => prefix_top (List.pairwise_map.1 hs.sorted) h2 hy hp hk hle
  have all : nodesFor s.contents.length ≤ n → ∀ y ∈ s.contents, p y = true → y.key ∈ (s.findBy n p).1 := by
    intro hn y hy hp
    rw [h3 (by unfold nodesFor at hn; split at hn <;> omega)]
    exact List.mem_map.2 ⟨y, List.mem_filter.2 ⟨by simpa using hy, hp⟩, rfl⟩
  have mem : ∀ k ∈ (s.findBy n p).1, ∃ x ∈ s.contents, x.key = k := by
    intro k hk
    have : k ∈ (s.contents.reverse.filter p).map (·.key) := by rw [h2]; exact List.mem_append_left _ hk
    obtain ⟨x, hx, rfl⟩ := List.mem_map.1 this
    exact ⟨x, by simpa using (List.mem_filter.1 hx).1, rfl⟩
  rcases id hs with ⟨F, h0, hal⟩ | ⟨t, F, hT⟩
  · have hc0 := Slab.contents_empty h0
    have hr0 : s.rootHandle = none := by unfold Slab.rootHandle; simp [h0]
    have e : s.findBy n p = ([], n) := by simp [Slab.findBy, hr0]
    refine ⟨top, all, ?_, ?_, ?_, mem, ?_⟩
    · rw [hc0]; intro x hx; cases hx
    · rw [e]; exact Nat.zero_le _
    · rw [e, hc0]; rfl
    · rw [hc0]; rintro _ ⟨y, hy, _⟩; cases hy
  · have hl := t.visit_length
    have hpos : t.leaves.length ≠ 0 := by omega
    have hn : nodesFor s.contents.length = t.visit.length := by
      rw [hT.contents]; unfold nodesFor; rw [if_neg hpos]; omega
    have e : s.findBy n p = (((t.visit.take n).filterMap id |>.filter p).map (·.key), n - t.visit.length) := by
      unfold Slab.findBy
      rw [hT.rootHandle]
      have := findByLoop_eq (s := s) p n [t] (by simpa using hT.rep)
      simpa only [List.map_cons, List.map_nil, List.flatMap_cons, List.flatMap_nil, List.append_nil] using this
    refine ⟨top, all, ?_, ?_, ?_, mem, ?_⟩
    · intro x hx hk hlow
      rw [hn]
      by_cases hle : t.visit.length ≤ n
      · exact hle
      · exfalso
        obtain ⟨i, l, hv⟩ := visit_last t
        have hlv := t.visit_leaves
        rw [hv, List.filterMap_append] at hlv
        have hlen : t.visit.length = i.length + 1 := by rw [hv]; simp
        have hrev : t.leaves.reverse = i.filterMap id ++ [l] := by rw [← hlv]; rfl
        have hsort : (i.filterMap id ++ [l]).Pairwise fun a b => b.key < a.key := by
          rw [← hrev]
          refine List.pairwise_reverse.2 ?_
          rw [← hT.contents]
          exact List.pairwise_map.1 hs.sorted
        have hlm : l ∈ s.contents := by
          rw [hT.contents, ← List.mem_reverse, hrev]; simp
        rw [e, hv] at hk
        simp only [List.mem_map, List.mem_filter, List.mem_filterMap] at hk
        obtain ⟨z, ⟨⟨w, h4, h5⟩, _⟩, h6⟩ := hk
        simp only [id] at h5
        subst h5
        rw [List.take_append_of_le_length (by omega)] at h4
        have hz : z ∈ i.filterMap id := List.mem_filterMap.2 ⟨some z, List.mem_of_mem_take h4, rfl⟩
        have := (List.pairwise_append.1 hsort).2.2 z hz l (by simp)
        have := hlow l hlm
        omega
    · rw [e, hn]
      have h1 := List.length_filter_le p ((t.visit.take n).filterMap id)
      have h2 := List.length_filterMap_le id (t.visit.take n)
      simp only [List.length_map]
      rw [List.length_take] at h2
      omega
    · rw [e, hn]
    · rintro hlim ⟨y, hy, hp⟩ hnil
      by_cases hle : nodesFor s.contents.length ≤ n
      · have := all hle y hy hp
        rw [hnil] at this
        cases this
      · have h4 := visit_take t n
        have h5 := depth_bit hT.wf
        rw [List.length_take, Nat.min_eq_left (by omega)] at h4
        have h6 : ((t.visit.take n).filterMap id).filter p = [] := by
          rw [e] at hnil
          simpa using hnil
        have h7 : ((t.visit.take n).filterMap id).length ≤ (s.contents.filter fun l => !p l).length := by
          have h8 : ((t.visit.take n).filterMap id).filter (fun l => !p l) = (t.visit.take n).filterMap id := by
            rw [List.filter_eq_self]
            intro x hx
            have := List.filter_eq_nil_iff.1 h6 x hx
            simpa using this
          have h9 : ((t.visit.take n).filterMap id).Sublist t.leaves.reverse := by
            rw [← t.visit_leaves]
            exact (List.take_sublist _ _).filterMap _
          rw [← h8]
          have := (h9.filter fun l => !p l).length_le
          rw [List.filter_reverse, List.length_reverse] at this
          rw [hT.contents]
          exact this
        omega

theorem nodup_short : ∀ {L K : List Nat}, L.Nodup → (∀ x ∈ L, x ∈ K) → L.length ≤ K.length
  | [], _, _, _ => Nat.zero_le _
  | a :: L, K, hn, h => by
    have ha := h a (by simp)
    obtain ⟨hna, hnL⟩ := List.nodup_cons.1 hn
    have := nodup_short (K := K.erase a) hnL fun x hx =>
      (List.mem_erase_of_ne (by rintro rfl; exact hna hx)).2 (h x (by simp [hx]))
    rw [List.length_erase_of_mem ha] at this
    have := List.length_pos_of_mem ha
    simp only [List.length_cons]
    omega

/-- C128: how far a prune gets. -/
theorem prune_reach {P : Params} {s s' : State conc} (h : Reach P s) (hq : s.seq ≤ W64) {env : Env}
    {accts : List AccMeta} {limit : Nat} (hc : prune conc env s accts limit = .ok s') :
    ∃ m b k auth oo owner eq ls, accts = [m, b, k, auth, oo, owner, eq] ∧ Withdrawn s s' oo.key ls ∧
      Reached s oo.key limit ls := by
  obtain ⟨vs, hv, hqi, hi⟩ := h.view hq
  have hg := h.good hq
  obtain ⟨t, ht, hrs⟩ := Sim.ok_right (Refines.sim_prune hg.rs env accts limit) hc
  unfold prune at ht
  split at ht
  · rename_i m b k auth oo owner eq
    obtain ⟨_, hsig, ht⟩ := bind_ok ht
    obtain ⟨_, _, ht⟩ := bind_ok ht
    obtain ⟨_, hau, ht⟩ := bind_ok ht
    obtain ⟨o, hl, ht⟩ := bind_ok ht
    obtain ⟨_, _, ht⟩ := bind_ok ht
    obtain ⟨_, _, ht⟩ := bind_ok ht
    obtain ⟨_, _, ht⟩ := bind_ok ht
    obtain ⟨⟨ob, bl, al⟩, hr, ht⟩ := bind_ok ht
    simp only at ht
    obtain ⟨⟨ob1, oo1⟩, h1, ht⟩ := bind_ok ht
    simp only at ht
    obtain ⟨⟨ob2, oo2⟩, h2, hfin⟩ := bind_ok ht
    simp only [pure, Except.pure, Except.ok.injEq] at hfin
    have ho : ooAt s.oos oo.key = some o ∧ o.owner = owner.key := by
      rcases loadOrders_inv hl with ⟨g1, _, g3⟩ | ⟨_, _, g5, _⟩
      · refine ⟨g1, ?_⟩
        rcases g3 with g3 | g3
        · cases g3
        · injection g3 with g3; exact g3.symm
      · cases g5
    unfold removeAll at hr
    simp only at hr
    obtain ⟨⟨b', bl'⟩, hb, hr⟩ := bind_ok hr
    obtain ⟨⟨a', al'⟩, ha, hr⟩ := bind_ok hr
    cases hr
    obtain ⟨r1, r2, r3⟩ := removeKeys_lst hb
    obtain ⟨q1, q2, q3⟩ := removeKeys_lst ha
    have hst : setOo s.oos oo.key o = s.oos := setOo_same ho.1
    have hL := absState_q hg hqi
    obtain ⟨k1, k2, k3, B1, A1, evs1, k4, k5, k6⟩ := cancelLeaves_effect (c := s.toCore) (vs := vs)
      (B := s.bids.contents) (A := s.asks.contents) h1 rfl hL
      (by rw [show setOo s.toCore.oos oo.key o = s.oos from hst]; exact hi) (fun l hl => (r2 l hl).1) r3
    have hB1 : A1 = s.asks.contents := by rw [k6.asks, without_map_other (by decide)]
    obtain ⟨m1, m2, m3, B2, A2, evs2, m4, m5, m6⟩ := cancelLeaves_effect (c := s.toCore) (vs := vs) h2 k3 k4 k5
      (fun l hl => by rw [show sideOf .ask B1 A1 = A1 from rfl, hB1]; exact (q2 l hl).1) q3
    have hw := k6.trans m6
    have eB : ob2.bids.items = B2 := by
      rw [m1, k1]
      show b'.items = B2
      rw [r1, m6.bids, without_map_other (by decide), k6.bids,
        without_map_same hi.shape.book.bidSort (fun l hl => (r2 l hl).1)]
      rfl
    have eA : ob2.asks.items = A2 := by
      rw [m2, k2]
      show a'.items = A2
      rw [q1, m6.asks, hB1, without_map_same hi.shape.book.askSort (fun l hl => (q2 l hl).1)]
      rfl
    rw [← eB, ← eA] at hw
    refine ⟨m, b, k, auth, oo, owner, eq, _, rfl, Withdrawn.of hrs hfin.symm m3 m4 ho.1 hw, ?_⟩
    have ia : s.asks.Inv := hg.rs.asks.1
    have ib : s.bids.Inv := hg.rs.bids.1
    obtain ⟨p, hp⟩ : ∃ p : Leaf → Bool, p = fun l => l.owner == oo.key := ⟨_, rfl⟩
    have fa := findBy_found ia limit p
    have fb := findBy_found ib (s.asks.findBy limit p).2 p
    have ea : lst.findBy ((absState s).ob lst s.mkt).asks limit p = s.asks.findBy limit p := (findBy_eq ia limit p).symm
    have eb : ∀ n, lst.findBy ((absState s).ob lst s.mkt).bids n p = s.bids.findBy n p := fun n => (findBy_eq ib n p).symm
    have ha' : removeKeys lst ((absState s).ob lst s.mkt).asks (s.asks.findBy limit p).1 = .ok (a', al') := by
      rw [← ea, hp]; exact ha
    have hb' : removeKeys lst ((absState s).ob lst s.mkt).bids (s.bids.findBy (s.asks.findBy limit p).2 p).1 = .ok (b', bl') := by
      rw [← ea, ← eb, hp]; exact hb
    have ca := removeKeys_lst ha'
    have cb := removeKeys_lst hb'
    have own : ∀ {y : Leaf}, y.owner = oo.key → p y = true := by intro y hy; rw [hp]; simpa using hy
    have inA : ∀ {x}, (Side.ask, x) ∈ (bl'.map fun l => (Side.bid, l)) ++ (al'.map fun l => (Side.ask, l)) ↔ x ∈ al' := by
      intro x; simp
    have inB : ∀ {x}, (Side.bid, x) ∈ (bl'.map fun l => (Side.bid, l)) ++ (al'.map fun l => (Side.ask, l)) ↔ x ∈ bl' := by
      intro x; simp
    have toA : ∀ {x}, x ∈ s.asks.contents → x.key ∈ (s.asks.findBy limit p).1 → x ∈ al' := fun {x} hx hk =>
      removeKeys_all ha' hi.shape.book.askSort x hx hk
    have toB : ∀ {x}, x ∈ s.bids.contents → x.key ∈ (s.bids.findBy (s.asks.findBy limit p).2 p).1 → x ∈ bl' := fun {x} hx hk =>
      removeKeys_all hb' hi.shape.book.bidSort x hx hk
    have ofA : ∀ {x}, x ∈ al' → x ∈ s.asks.contents ∧ x.key ∈ (s.asks.findBy limit p).1 := fun {x} hx => ca.2.1 x hx
    have ofB : ∀ {x}, x ∈ bl' → x ∈ s.bids.contents ∧ x.key ∈ (s.bids.findBy (s.asks.findBy limit p).2 p).1 := fun {x} hx =>
      cb.2.1 x hx
    have spent : ∀ {x}, x ∈ bl' → nodesFor s.asks.contents.length < limit := by
      intro x hx
      have h1 := List.length_pos_of_mem (ofB hx).2
      have h2 := fb.few
      have h3 := fa.rest
      omega
    have asks : nodesFor s.asks.contents.length ≤ limit → ∀ y ∈ s.asks.contents, y.owner = oo.key → y ∈ al' :=
      fun hl y hy ho => toA hy (fa.all hl y hy (own ho))
    refine ⟨?_, ?_, ?_, ?_, ?_, ?_, ?_, ?_⟩
    · intro sd x y hx hy ho hle
      cases sd with
      | bid =>
        have g := ofB (inB.1 hx)
        exact inB.2 (toB hy (fb.top x g.1 y hy g.2 (own ho) hle))
      | ask =>
        have g := ofA (inA.1 hx)
        exact inA.2 (toA hy (fa.top x g.1 y hy g.2 (own ho) hle))
    · intro x hx y hy ho
      exact inA.2 (asks (Nat.le_of_lt (spent (inB.1 hx))) y hy ho)
    · intro hl y hy ho
      exact inA.2 (asks hl y hy ho)
    · intro hl sd y hy ho
      have hl : nodesFor s.asks.contents.length + nodesFor s.bids.contents.length ≤ limit := hl
      cases sd with
      | bid => exact inB.2 (toB hy (fb.all (by have := fa.rest; omega) y hy (own ho)))
      | ask => exact inA.2 (asks (by omega) y hy ho)
    · intro x hx hlow
      have g := ofA (inA.1 hx)
      exact fa.last x g.1 g.2 hlow
    · intro x hx hlow
      have g := ofB (inB.1 hx)
      have h1 := fb.last x g.1 g.2 hlow
      have h2 := spent (inB.1 hx)
      have h3 := fa.rest
      show nodesFor s.asks.contents.length + nodesFor s.bids.contents.length ≤ limit
      omega
    · have h1 := nodup_short ca.2.2 (K := (s.asks.findBy limit p).1) fun k hk => by
        obtain ⟨l, hl, rfl⟩ := List.mem_map.1 hk
        exact (ofA hl).2
      have h2 := nodup_short cb.2.2 (K := (s.bids.findBy (s.asks.findBy limit p).2 p).1) fun k hk => by
        obtain ⟨l, hl, rfl⟩ := List.mem_map.1 hk
        exact (ofB hl).2
      have h3 := fa.few
      have h4 := fb.few
      have h5 := fa.rest
      simp only [List.length_map] at h1 h2
      simp only [List.length_append, List.length_map]
      omega
    · rintro hlim hex hnil
      have nb : bl' = [] ∧ al' = [] := by simpa using hnil
      have hlim : 2 * ((s.asks.contents.filter fun l => l.owner != oo.key).length +
        (s.bids.contents.filter fun l => l.owner != oo.key).length) + 128 < limit := hlim
      have np : ∀ L : List Leaf, (L.filter fun l => !p l) = L.filter fun l => l.owner != oo.key := by
        intro L; rw [hp]; rfl
      by_cases hask : ∃ y ∈ s.asks.contents, y.owner = oo.key
      · obtain ⟨y, hy, ho⟩ := hask
        have := fa.some (by rw [np]; omega) ⟨y, hy, own ho⟩
        obtain ⟨k, hk⟩ := List.exists_mem_of_ne_nil _ this
        obtain ⟨x, hx, rfl⟩ := fa.mem k hk
        have := toA hx hk
        rw [nb.2] at this
        cases this
      · obtain ⟨sd, y, hy, ho⟩ := hex
        have hall : (s.asks.contents.filter fun l => l.owner != oo.key) = s.asks.contents := by
          rw [List.filter_eq_self]
          intro x hx
          have : ¬ x.owner = oo.key := fun e => hask ⟨x, hx, e⟩
          simpa using this
        rw [hall] at hlim
        cases sd with
        | ask => exact hask ⟨y, hy, ho⟩
        | bid =>
          have hrest := fa.rest
          have hnode : nodesFor s.asks.contents.length ≤ 2 * s.asks.contents.length := by
            unfold nodesFor; split <;> omega
          have := fb.some (by rw [np]; omega) ⟨y, hy, own ho⟩
          obtain ⟨k, hk⟩ := List.exists_mem_of_ne_nil _ this
          obtain ⟨x, hx, rfl⟩ := fb.mem k hk
          have := toB hx hk
          rw [nb.1] at this
          cases this
  · cases ht

/-- C128: so who has the lowest bid is rid of all orders by a prune exactly if its limit covers the nodes of both sides. -/
theorem prune_clears_iff {P : Params} {s s' : State conc} (h : Reach P s) (hq : s.seq ≤ W64) {env : Env} {limit : Nat}
    {m b k auth oo owner eq : AccMeta} (hc : prune conc env s [m, b, k, auth, oo, owner, eq] limit = .ok s') {x : Leaf}
    (hx : x ∈ resting s .bid) (hlow : ∀ y ∈ resting s .bid, x.key ≤ y.key) (ho : x.owner = oo.key) :
    (∀ sd, ordersOf s' sd oo.key = []) ↔
      nodesFor (resting s .ask).length + nodesFor (resting s .bid).length ≤ limit := by
  obtain ⟨m', b', k', auth', oo', owner', eq', ls, e, hw, hr⟩ := prune_reach h hq hc
  simp only [List.cons.injEq, and_true] at e
  obtain ⟨rfl, rfl, rfl, rfl, rfl, rfl, rfl⟩ := e
  constructor
  · intro hn
    refine hr.lastBid x ?_ hlow
    refine Decidable.byContradiction fun hc => ?_
    have : x ∈ ordersOf s' .bid oo.key := by
      refine List.mem_filter.2 ⟨?_, by simpa using ho⟩
      rw [hw.books .bid]
      exact mem_without.2 ⟨hx, hc⟩
    rw [hn .bid] at this
    cases this
  · intro hl sd
    unfold ordersOf
    rw [hw.books sd, List.filter_eq_nil_iff]
    intro y hy
    obtain ⟨h1, h2⟩ := mem_without.1 hy
    have := fun e => h2 (hr.all hl sd y h1 e)
    simpa using this

/-- Prunes of the orders of `a`, `n` of them, each with a limit of at least `lo`, and between them anything that leaves the
books alone. -/
inductive Prunes (P : Params) (a lo : Nat) : Nat → State conc → State conc → Prop where
  | start (s : State conc) : Prunes P a lo 0 s s
  | prune {n : Nat} {s t u : State conc} {env : Env} {m b k auth oo owner eq : AccMeta} {data : List UInt8} {limit : Nat}
      (h : Prunes P a lo n s t) (hl : lo ≤ limit) (hd : Instruction.unpack data = some (.prune limit))
      (hn : NotVault P t.mkt [m, b, k, auth, oo, owner, eq])
      (hx : processRaw conc P env t [m, b, k, auth, oo, owner, eq] data = .ok u) (ha : oo.key = a) : Prunes P a lo (n + 1) s u
  | other {n : Nat} {s t u : State conc} (h : Prunes P a lo n s t) (hs : Step P t u)
      (hb : ∀ sd, resting u sd = resting t sd) : Prunes P a lo n s u

theorem Prunes.reach {P : Params} {a lo n : Nat} {s u : State conc} (h : Prunes P a lo n s u) (hr : Reach P s) : Reach P u := by
  induction h with
  | start => exact hr
  | prune _ _ _ hn hx _ ih => exact .step (ih hr) (.instr hn hx)
  | other _ hs _ ih => exact .step (ih hr) hs

/-- Withdrawing some of an account's orders leaves fewer of them and all those of others. -/
theorem Withdrawn.counts {s s' : State conc} {a : Nat} {ls : List (Side × Leaf)} (h : Withdrawn s s' a ls) (sd : Side) :
    strangers s' sd a = strangers s sd a ∧ (ordersOf s' sd a).length ≤ (ordersOf s sd a).length ∧
    ((∃ x, (sd, x) ∈ ls) → (ordersOf s' sd a).length < (ordersOf s sd a).length) := by
  have hsub : (ordersOf s' sd a).Sublist (ordersOf s sd a) := by
    unfold ordersOf
    rw [h.books sd]
    exact List.Sublist.filter _ List.filter_sublist
  refine ⟨?_, hsub.length_le, ?_⟩
  · unfold strangers
    rw [h.books sd]
    unfold without
    rw [List.filter_filter]
    congr 1
    apply List.filter_congr
    intro x _
    by_cases hx : (sd, x) ∈ ls
    · have := (h.theirs sd x hx).2
      simp [this]
    · have : ls.contains (sd, x) = false := by simpa using hx
      rw [this]; simp
  · rintro ⟨x, hx⟩
    refine Nat.lt_of_le_of_ne hsub.length_le fun he => ?_
    have e := hsub.eq_of_length he
    have h1 : x ∈ ordersOf s sd a := List.mem_filter.2 ⟨(h.theirs sd x hx).1, by simpa using (h.theirs sd x hx).2⟩
    rw [← e] at h1
    have h2 := (List.mem_filter.1 h1).1
    rw [h.books sd] at h2
    exact (mem_without.1 h2).2 hx

/-- C128: repeated prunes clear an account if the limit is more than twice the orders of others on the books and 128. -/
theorem prunes_clear {P : Params} {a lo n : Nat} {s u : State conc} (hr : Reach P s) (hq : u.seq ≤ W64)
    (hlo : 2 * (strangers s .ask a + strangers s .bid a) + 128 < lo) (h : Prunes P a lo n s u)
    (hn : (ordersOf s .ask a).length + (ordersOf s .bid a).length ≤ n) (sd : Side) : ordersOf u sd a = [] := by
  have key : (∀ sd, strangers u sd a = strangers s sd a) ∧
      ((ordersOf u .ask a).length + (ordersOf u .bid a).length + n ≤ (ordersOf s .ask a).length + (ordersOf s .bid a).length ∨
        (ordersOf u .ask a).length + (ordersOf u .bid a).length = 0) := by
    clear hn
    induction h with
    | start => exact ⟨fun _ => rfl, .inl (Nat.le_refl _)⟩
    | @prune n s t u env m b k auth oo owner eq data limit h hl hd hn' hx ha ih =>
      have hqt : t.seq ≤ W64 := Nat.le_trans (Step.instr hn' hx).seq hq
      obtain ⟨i1, i2⟩ := ih hr hqt hlo
      unfold processRaw at hx
      rw [hd] at hx
      have hx : Serum.prune conc env t [m, b, k, auth, oo, owner, eq] limit = .ok u := hx
      obtain ⟨m', b', k', auth', oo', owner', eq', ls, e, hw, hre⟩ := prune_reach (h.reach hr) hqt hx
      simp only [List.cons.injEq, and_true] at e
      obtain ⟨rfl, rfl, rfl, rfl, rfl, rfl, rfl⟩ := e
      rw [ha] at hw hre
      have ca := hw.counts .ask
      have cb := hw.counts .bid
      refine ⟨fun sd => (hw.counts sd).1.trans (i1 sd), ?_⟩
      by_cases hex : ∃ sd, ∃ y ∈ resting t sd, y.owner = a
      · have hne := hre.progress (by rw [i1, i1]; omega) hex
        obtain ⟨⟨sd, x⟩, hx⟩ := List.exists_mem_of_ne_nil _ hne
        cases sd with
        | ask => have := ca.2.2 ⟨x, hx⟩; omega
        | bid => have := cb.2.2 ⟨x, hx⟩; omega
      · have nil : ∀ sd, ordersOf t sd a = [] := by
          intro sd
          unfold ordersOf
          rw [List.filter_eq_nil_iff]
          intro y hy
          have : ¬ y.owner = a := fun e => hex ⟨sd, y, hy, e⟩
          simpa using this
        have h1 := ca.2.1
        have h2 := cb.2.1
        rw [nil] at h1 h2
        simp only [List.length_nil] at h1 h2
        omega
    | @other n s t u h hs hb ih =>
      obtain ⟨i1, i2⟩ := ih hr (Nat.le_trans hs.seq hq) hlo
      unfold strangers ordersOf at *
      simp only [hb]
      exact ⟨i1, i2⟩
  have z : (ordersOf u .ask a).length + (ordersOf u .bid a).length = 0 := by omega
  cases sd with
  | ask => exact List.eq_nil_of_length_eq_zero (by omega)
  | bid => exact List.eq_nil_of_length_eq_zero (by omega)

/-- As many orders are gone as were withdrawn. -/
theorem Withdrawn.fewer {P : Params} {s s' : State conc} (h : Reach P s) (hq : s.seq ≤ W64) {a : Nat}
    {ls : List (Side × Leaf)} (hw : Withdrawn s s' a ls) :
    (ordersOf s' .bid a).length + (ordersOf s' .ask a).length + ls.length =
      (ordersOf s .bid a).length + (ordersOf s .ask a).length := by
  obtain ⟨vs, _, _, hi⟩ := h.view hq
  have one : ∀ L : List Leaf, sumBy (fun l => if l.owner == a then 1 else 0) L = (L.filter fun l => l.owner == a).length := by
    intro L
    induction L with
    | nil => rfl
    | cons x L ih =>
      have e : sumBy (fun l : Leaf => if l.owner == a then 1 else 0) (x :: L) =
        (if x.owner == a then 1 else 0) + sumBy (fun l : Leaf => if l.owner == a then 1 else 0) L := by simp [sumBy]
      rw [e, ih, List.filter_cons]
      split <;> simp <;> omega
  have side : ∀ sd, (ordersOf s sd a).length = (ordersOf s' sd a).length +
      sumBy (fun x : Side × Leaf => if x.1 = sd then 1 else 0) ls := by
    intro sd
    have hnd : (resting s sd).Nodup := by
      have := side_nodup hi.shape.book sd
      cases sd <;> exact this
    have := total_without hnd hw.nodup (fun l hl => (hw.theirs sd l hl).1) (fun l => if l.owner == a then 1 else 0)
    unfold ordersOf
    rw [← one, ← one, hw.books sd, this]
    congr 1
    refine sumBy_congr' fun x hx => ?_
    have := (hw.theirs x.1 x.2 hx).2
    simp [this]
  have all : ∀ l : List (Side × Leaf), sumBy (fun x : Side × Leaf => if x.1 = Side.bid then 1 else 0) l +
      sumBy (fun x : Side × Leaf => if x.1 = Side.ask then 1 else 0) l = l.length := by
    intro l
    induction l with
    | nil => rfl
    | cons x l ih =>
      obtain ⟨sd, y⟩ := x
      cases sd <;> simp [sumBy] at ih ⊢ <;> omega
  have h1 := side .bid
  have h2 := side .ask
  have h3 := all ls
  omega

theorem outs_add {m : Market} {f : EventView → Nat} (hz : ∀ x, f (outEvent m x) = 0) (a : Nat) (evs : List EventView) :
    ∀ ls : List (Side × Leaf), total f ((evs ++ ls.map (outEvent m)).filter fun v => v.owner == a) =
      total f (evs.filter fun v => v.owner == a) := by
  intro ls
  have z : total f ((ls.map (outEvent m)).filter fun v => v.owner == a) = 0 := by
    unfold total
    rw [List.sum_eq_zero_iff_forall_eq_nat]
    intro n hn
    obtain ⟨v, hv, rfl⟩ := List.mem_map.1 hn
    obtain ⟨x, _, rfl⟩ := List.mem_map.1 (List.mem_filter.1 hv).1
    exact hz x
  rw [List.filter_append, total_append, z]
  rfl

/-- Withdrawals leave what an account holds as it is. -/
theorem Withdrawn.holds {P : Params} {s s' : State conc} (h : Reach P s) (hq : s.seq ≤ W64) {a : Nat}
    {ls : List (Side × Leaf)} (hw : Withdrawn s s' a ls) {o : OpenOrders} (ho : ooAt s.oos a = some o) (hf : HoldsFit s a o) :
    HoldsFit s' a (released s.mkt ls o) := by
  obtain ⟨o1, w1, w2⟩ := hw.account
  rw [ho] at w1; cases w1
  have hfl := hw.filled h hq a
  have hb := hfl.base
  have hq := hfl.quote
  unfold baseClaim freeOf eventsOf at hb
  unfold quoteClaim freeOf eventsOf at hq
  rw [ho, w2, hw.mkt, hw.events, outs_add (by rintro ⟨sd, x⟩; cases sd <;> rfl)] at hb hq
  unfold HoldsFit baseHeld quoteHeld at *
  rw [hw.mkt, hw.events, outs_add (by rintro ⟨sd, x⟩; cases sd <;> rfl), outs_add (by rintro ⟨sd, x⟩; cases sd <;> rfl)]
  have e0 : ∀ f : Trade → Nat, total f [] = 0 := fun _ => rfl
  rw [e0, e0] at hb hq
  simp only at hb hq
  have ea : ∀ s : State conc, ordersOf s .ask a = s.asks.contents.filter fun l => l.owner == a := fun _ => rfl
  have eb : ∀ s : State conc, ordersOf s .bid a = s.bids.contents.filter fun l => l.owner == a := fun _ => rfl
  rw [ea, ea] at hb
  rw [eb, eb] at hq
  omega

/-- C128: and the prune authority can do so: the account named is open, the market enabled, the queue has room for an event
for each of its orders, and what it holds fits in 64 bits. -/
theorem prunes_can {P : Params} {env : Env} {a limit : Nat} (hu : limit < 2 ^ 16) : ∀ {n : Nat} {s : State conc} {o : OpenOrders},
    Reach P s → s.seq ≤ W64 → ooAt s.oos a = some o → o.closed = false → ¬ Disabled s.mkt → s.mkt.flags.testBit 9 = true →
    s.mkt.bids ≠ s.mkt.asks → P.vaultSigner s.mkt.ownAddress s.mkt.vaultSignerNonce ≠ some s.mkt.pruneAuthority →
    (pending s).length + (ordersOf s .bid a).length + (ordersOf s .ask a).length ≤ s.q.buf.length → HoldsFit s a o →
    2 * (strangers s .ask a + strangers s .bid a) + 128 < limit →
    ∃ u, Prunes P a limit n s u ∧ ((ordersOf s .ask a).length + (ordersOf s .bid a).length ≤ n → ∀ sd, ordersOf u sd a = []) := by
  intro n s o h hq ho hcl hen hp hne hns hroom hfit hlim
  have main : ∃ u o', Prunes P a limit n s u ∧ u.seq ≤ W64 ∧ u.mkt = s.mkt ∧ ooAt u.oos a = some o' ∧ o'.closed = false ∧
      (pending u).length + (ordersOf u .bid a).length + (ordersOf u .ask a).length ≤ u.q.buf.length ∧ HoldsFit u a o' := by
    clear hlim
    induction n with
    | zero => exact ⟨s, o, .start _, hq, rfl, ho, hcl, hroom, hfit⟩
    | succ n ih =>
      obtain ⟨u, o', c, uq, um, uo, ucl, ur, uf⟩ := ih
      have hr := c.reach h
      obtain ⟨v, hv⟩ := prune_works hr uq env uo ucl (by rw [um]; exact hen) (by rw [um]; exact hp) (by rw [um]; exact hne) limit ur uf
      have hval : IxValid (.prune limit) := (by simpa using hu : U16 limit)
      have hx : processRaw conc P env u (pruneAccts u a o'.owner) (Instruction.prune limit).pack = .ok v :=
        raw_of (ix := .prune limit) hval hv
      have hn : NotVault P u.mkt (pruneAccts u a o'.owner) := by
        intro m hm hs
        simp only [pruneAccts, List.mem_cons, List.not_mem_nil, or_false] at hm
        rcases hm with rfl | rfl | rfl | rfl | rfl | rfl | rfl <;> first | (rw [um]; exact hns) | simp at hs
      obtain ⟨m, b, k, auth, oo, owner, eq, ls, e, hw, _⟩ := prune_reach hr uq hv
      unfold pruneAccts at e
      simp only [List.cons.injEq, and_true] at e
      obtain ⟨rfl, rfl, rfl, rfl, rfl, rfl, rfl⟩ := e
      have hw : Withdrawn u v a ls := hw
      obtain ⟨o1, w1, w2⟩ := hw.account
      rw [show ooAt u.oos a = some o' from uo] at w1
      cases w1
      refine ⟨v, _, .prune c (Nat.le_refl _) (instruction_round_trip (.prune limit) hval) hn hx rfl, by rw [hw.seq]; exact uq,
        hw.mkt.trans um, w2, ucl, ?_, hw.holds hr uq uo uf⟩
      have hsum := hw.fewer hr uq
      rw [queue_capacity hr uq hx, hw.events, List.length_append, List.length_map]
      omega
  obtain ⟨u, o', c, uq, _⟩ := main
  exact ⟨u, c, fun hn sd => prunes_clear h uq hlim c hn sd⟩

-- two bids and an ask of account 42 behind an ask of account 41: six nodes. With a limit of six all three go, with five the
-- lower bid stays, with two the bids stay and the ask goes, with one nothing goes
example : Reach Demo.P Demo.p6 ∧ (resting Demo.p6 .bid).map (·.owner) = [42, 42] ∧
    (resting Demo.p6 .ask).map (·.owner) = [41, 42] ∧
    [6, 5, 4, 3, 2, 1].map (fun n => (prune conc Demo.env Demo.p6 (Demo.pruneAccts 42 12) n).toOption.map
      fun s => ((ordersOf s .bid 42).length, (ordersOf s .ask 42).length)) =
      [some (0, 0), some (1, 0), some (2, 0), some (2, 0), some (2, 0), some (2, 1)] :=
  ⟨Demo.k6, by decide +kernel, by decide +kernel, by decide +kernel⟩

-- a limit of 131 is enough for it: one order of others
example : strangers Demo.p6 .ask 42 = 1 ∧ strangers Demo.p6 .bid 42 = 0 ∧
    (ordersOf Demo.p6 .ask 42).length + (ordersOf Demo.p6 .bid 42).length = 3 ∧
    ∃ u, Prunes Demo.P 42 131 3 Demo.p6 u ∧ ∀ sd, ordersOf u sd 42 = [] := by
  have step : ∀ {n : Nat} {t : State conc}, Prunes Demo.P 42 131 n Demo.p6 t →
      Demo.fine t (Demo.pruneAccts 42 12) (.prune 131) = true →
      Prunes Demo.P 42 131 (n + 1) Demo.p6 (Demo.run t (Demo.pruneAccts 42 12) (.prune 131)) := by
    intro n t h hf
    have hx : processRaw conc Demo.P Demo.env t (Demo.pruneAccts 42 12) (Instruction.pack (.prune 131)) =
        .ok (Demo.run t (Demo.pruneAccts 42 12) (.prune 131)) := by
      unfold processRaw
      rw [instruction_round_trip (.prune 131) (by decide : U16 131)]
      exact Demo.run_eq hf
    have hn : NotVault Demo.P t.mkt (Demo.pruneAccts 42 12) := Demo.notVault _ (by decide)
    exact .prune h (Nat.le_refl 131) (instruction_round_trip (.prune 131) (by decide : U16 131)) hn hx rfl
  have c := step (step (step (.start _) (by decide +kernel)) (by decide +kernel)) (by decide +kernel)
  refine ⟨by decide +kernel, by decide +kernel, by decide +kernel, _, c, ?_⟩
  exact prunes_clear Demo.k6 (by decide +kernel) (by decide +kernel) c (by decide +kernel)

-- the hypotheses of `prunes_can` hold there
example : ∃ u, Prunes Demo.P 42 131 3 Demo.p6 u ∧ ∀ sd, ordersOf u sd 42 = [] := by
  have ho : (ooAt Demo.p6.oos 42).any (fun o => decide (HoldsFit Demo.p6 42 o ∧ o.closed = false)) = true := by decide +kernel
  obtain ⟨o, h1, h2⟩ : ∃ o, ooAt Demo.p6.oos 42 = some o ∧ (HoldsFit Demo.p6 42 o ∧ o.closed = false) := by
    cases h : ooAt Demo.p6.oos 42 with
    | none => rw [h] at ho; cases ho
    | some o => rw [h] at ho; exact ⟨o, rfl, of_decide_eq_true ho⟩
  obtain ⟨u, c, hc⟩ := prunes_can (P := Demo.P) (env := Demo.env) (a := 42) (limit := 131) (by decide) (n := 3) (s := Demo.p6)
    Demo.k6 (by decide +kernel) h1 h2.2 (by unfold Disabled; decide +kernel) (by decide +kernel) (by decide +kernel)
    (by decide +kernel) (by decide +kernel) h2.1 (by decide +kernel)
  exact ⟨u, c, hc (by decide +kernel)⟩

end Serum.Props
