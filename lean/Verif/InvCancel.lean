import Verif.InvExec

/-
Preservation of the invariant by cancellations, pruning and consuming events.
-/

namespace Serum

/-- Engine state and the caller's account satisfy the invariant, over given other components. -/
def CInv (vs : Nat) (c : Core) (a : Nat) (ob : Ob lst) (oo : OpenOrders) : Prop :=
  ∃ evs, ob.mkt = c.mkt ∧ ob.q.items = evs.map Event.new ∧
    Inv vs c.mkt c.seq (setOo c.oos a oo) c.toks ob.bids.items ob.asks.items evs

theorem CInv.back {P : Params} {vs : Nat} {s : State lst} {a : Nat} {ob : Ob lst} {oo : OpenOrders}
    (hv : P.vaultSigner s.mkt.ownAddress s.mkt.vaultSignerNonce = some vs)
    (h : CInv vs s.toCore a ob oo) : SInv P (s.back lst ob a oo) := by
  obtain ⟨evs, hm, hq, hi⟩ := h
  refine ⟨vs, evs, ?_, hq, ?_⟩
  · show P.vaultSigner ob.mkt.ownAddress ob.mkt.vaultSignerNonce = some vs
    rw [hm]; exact hv
  · show Inv vs ob.mkt s.seq (setOo s.oos a oo) s.toks ob.bids.items ob.asks.items evs
    rw [hm]; exact hi

theorem CInv.start {vs : Nat} {s : State lst} {env : Env} {a : Nat} {owner : Option Nat} {oo : OpenOrders}
    {rent : Bool} {auth : Option Nat} {evs : List EventView}
    (hq : s.q.items = evs.map Event.new)
    (hi : Inv vs s.mkt s.seq s.oos s.toks s.bids.items s.asks.items evs)
    (hl : loadOrders s.toCore env a owner rent auth = .ok oo) : CInv vs s.toCore a (s.ob lst s.mkt) oo :=
  ⟨evs, rfl, hq, (hi.load hl).1⟩

theorem ooAt_setOo_same (l : List (Nat × OpenOrders)) (a : Nat) (o : OpenOrders) :
    ooAt (setOo l a o) a = some o := by rw [ooAt_setOo]; simp

theorem dropKey_key {L : List Leaf} {k : Nat} (h : L.find? (fun x => x.key == k) = none) : dropKey k L = L := by
  unfold dropKey
  rw [List.find?_eq_none] at h
  rw [List.filter_eq_self]
  intro x hx
  have := h x hx
  simp at this
  simpa using this

theorem cancelOrderV2_inv {vs : Nat} {c : Core} {a : Nat} {ob ob' : Ob lst} {oo oo' : OpenOrders} {sd : Side}
    {id : Nat} (h : cancelOrderV2 lst ob sd a oo id = .ok (ob', oo')) (hi : CInv vs c a ob oo) :
    CInv vs c a ob' oo' := by
  obtain ⟨evs, hm, hq, hi⟩ := hi
  unfold cancelOrderV2 at h
  obtain ⟨⟨b, l⟩, hr, h⟩ := bind_ok h
  cases l with
  | none => cases h
  | some lf =>
    simp only at h
    simp only [Except.ok.injEq, Prod.mk.injEq] at hr
    obtain ⟨rfl, hf⟩ := hr
    have hkey : lf.key = id := by simpa using List.find?_some hf
    have hmem := List.mem_of_find?_eq_some hf
    have hmem' : lf ∈ sideOf sd ob.bids.items ob.asks.items := by
      cases sd <;> exact hmem
    obtain ⟨hown, _, _, n, hu, rfl⟩ := cancelLeaf_inv h
    have hu' : unlockLeaf c.mkt lf sd oo = .ok (n, oo') := by
      rw [← hm]; cases sd <;> exact hu
    have hc := hi.cancel (ooAt_setOo_same _ _ _) hmem' hown (cid := lf.clientId) hu'
    rw [setOo_setOo] at hc
    refine ⟨evs ++ [.out sd false n 0 id a lf.ownerSlot lf.clientId], ?_, ?_, ?_⟩
    · cases sd <;> exact hm
    · cases sd <;> simp [Ob.push, Ob.setSide, hq]
    · subst hkey
      cases sd <;> exact hc

theorem cancelMany_inv {vs : Nat} {c : Core} {a : Nat} {l : List (Nat × Side)} :
    ∀ {ob ob' : Ob lst} {oo oo' : OpenOrders}, cancelMany lst a ob oo l = .ok (ob', oo') →
      CInv vs c a ob oo → CInv vs c a ob' oo' := by
  induction l with
  | nil =>
    intro ob ob' oo oo' h hi
    cases h
    exact hi
  | cons x xs ih =>
    intro ob ob' oo oo' h hi
    obtain ⟨id, sd⟩ := x
    unfold cancelMany at h
    split at h
    · rename_i ob1 oo1 h1
      exact ih h (cancelOrderV2_inv h1 hi)
    · exact ih h hi
    · cases h

theorem cancelV2_inv {P : Params} {env : Env} {s s' : State lst} {accts : List AccMeta} {sd : Side} {id : Nat}
    (h : cancelV2 lst env s accts sd id = .ok s') (hi : SInv P s) : SInv P s' := by
  obtain ⟨vs, evs, hv, hq, hi⟩ := hi
  unfold cancelV2 at h
  obtain ⟨a, _, h⟩ := bind_ok h
  obtain ⟨oo, ha, h⟩ := bind_ok h
  obtain ⟨⟨ob, oo1⟩, h1, h⟩ := bind_ok h
  cases h
  obtain ⟨_, _, ha⟩ := bind_ok ha
  obtain ⟨_, _, ha⟩ := bind_ok ha
  obtain ⟨oo2, hl, ha⟩ := bind_ok ha
  obtain ⟨_, _, ha⟩ := bind_ok ha
  obtain ⟨_, _, ha⟩ := bind_ok ha
  obtain ⟨_, _, ha⟩ := bind_ok ha
  cases ha
  exact (cancelOrderV2_inv h1 (CInv.start hq hi hl)).back hv

theorem cancelByClientIdV2_inv {P : Params} {env : Env} {s s' : State lst} {accts : List AccMeta} {cid : Nat}
    (h : cancelByClientIdV2 lst env s accts cid = .ok s') (hi : SInv P s) : SInv P s' := by
  obtain ⟨vs, evs, hv, hq, hi⟩ := hi
  unfold cancelByClientIdV2 at h
  obtain ⟨a, _, h⟩ := bind_ok h
  obtain ⟨_, _, h⟩ := bind_ok h
  obtain ⟨oo, ha, h⟩ := bind_ok h
  obtain ⟨⟨id, sd⟩, _, h⟩ := bind_ok h
  obtain ⟨⟨ob, oo1⟩, h1, h⟩ := bind_ok h
  cases h
  obtain ⟨_, _, ha⟩ := bind_ok ha
  obtain ⟨_, _, ha⟩ := bind_ok ha
  obtain ⟨oo2, hl, ha⟩ := bind_ok ha
  obtain ⟨_, _, ha⟩ := bind_ok ha
  obtain ⟨_, _, ha⟩ := bind_ok ha
  obtain ⟨_, _, ha⟩ := bind_ok ha
  cases ha
  exact (cancelOrderV2_inv h1 (CInv.start hq hi hl)).back hv

theorem cancelByClientIds_inv {P : Params} {env : Env} {s s' : State lst} {accts : List AccMeta}
    {cids : List Nat} (h : cancelByClientIds lst env s accts cids = .ok s') (hi : SInv P s) : SInv P s' := by
  obtain ⟨vs, evs, hv, hq, hi⟩ := hi
  unfold cancelByClientIds at h
  obtain ⟨a, _, h⟩ := bind_ok h
  simp only at h
  obtain ⟨oo, ha, h⟩ := bind_ok h
  obtain ⟨⟨ob, oo1⟩, h1, h⟩ := bind_ok h
  cases h
  obtain ⟨_, _, ha⟩ := bind_ok ha
  obtain ⟨_, _, ha⟩ := bind_ok ha
  obtain ⟨oo2, hl, ha⟩ := bind_ok ha
  obtain ⟨_, _, ha⟩ := bind_ok ha
  obtain ⟨_, _, ha⟩ := bind_ok ha
  obtain ⟨_, _, ha⟩ := bind_ok ha
  cases ha
  exact (cancelMany_inv h1 (CInv.start hq hi hl)).back hv

/-! ### Pruning -/

/-- A book without the given leaves. -/
def dropAll (ls : List Leaf) (L : List Leaf) : List Leaf := L.filter (fun x => !(ls.map (·.key)).contains x.key)

theorem dropAll_nil (L : List Leaf) : dropAll [] L = L := by
  unfold dropAll; rw [List.filter_eq_self]; simp

theorem dropAll_cons (l : Leaf) (ls L : List Leaf) : dropAll (l :: ls) L = dropAll ls (dropKey l.key L) := by
  unfold dropAll dropKey
  rw [List.filter_filter]
  congr 1
  funext x
  simp only [List.map_cons, List.contains_cons, Bool.not_or, bne]
  rw [Bool.and_comm]

/-- What removing a list of keys does. -/
theorem removeKeys_lst {ks : List Nat} : ∀ {b b' : LBook} {ls : List Leaf},
    removeKeys lst b ks = .ok (b', ls) →
    b'.items = dropAll ls b.items ∧ (∀ l ∈ ls, l ∈ b.items ∧ l.key ∈ ks) ∧ (ls.map (·.key)).Nodup := by
  induction ks with
  | nil =>
    intro b b' ls h
    cases h
    exact ⟨(dropAll_nil _).symm, by simp, by simp⟩
  | cons k ks ih =>
    intro b b' ls h
    unfold removeKeys at h
    obtain ⟨⟨b1, l⟩, hr, h⟩ := bind_ok h
    simp only at h
    obtain ⟨⟨b2, ls1⟩, hr2, h⟩ := bind_ok h
    simp only [pure, Except.pure, Except.ok.injEq, Prod.mk.injEq] at h
    obtain ⟨rfl, rfl⟩ := h
    simp only [Except.ok.injEq, Prod.mk.injEq] at hr
    obtain ⟨rfl, hf⟩ := hr
    obtain ⟨i1, i2, i3⟩ := ih hr2
    simp only at i1 i2
    cases l with
    | none =>
      have := dropKey_key hf
      unfold dropKey at this
      rw [this] at i1 i2
      exact ⟨i1, fun l hl => ⟨(i2 l hl).1, List.mem_cons_of_mem _ (i2 l hl).2⟩, i3⟩
    | some l =>
      have hkey : l.key = k := by simpa using List.find?_some hf
      subst hkey
      refine ⟨?_, ?_, ?_⟩
      · rw [i1]
        simp only [Option.toList_some, List.singleton_append]
        rw [dropAll_cons]; rfl
      · intro x hx
        simp only [Option.toList_some, List.singleton_append, List.mem_cons] at hx
        rcases hx with rfl | hx
        · exact ⟨List.mem_of_find?_eq_some hf, by simp⟩
        · exact ⟨(List.mem_filter.1 (i2 x hx).1).1, by simp [(i2 x hx).2]⟩
      · simp only [Option.toList_some, List.singleton_append, List.map_cons, List.nodup_cons]
        refine ⟨?_, i3⟩
        intro hc
        obtain ⟨x, hx, hk⟩ := List.mem_map.1 hc
        have := (List.mem_filter.1 (i2 x hx).1).2
        simp [hk] at this

/-- Cancelling removed leaves one after the other: seen from the books that still held them. -/
theorem cancelLeaves_inv {vs : Nat} {c : Core} {a : Nat} {sd : Side} {ls : List Leaf} :
    ∀ {ob ob' : Ob lst} {oo oo' : OpenOrders} {B A : List Leaf} {evs : List EventView},
      cancelLeaves lst sd a ob oo ls = .ok (ob', oo') → ob.mkt = c.mkt → ob.q.items = evs.map Event.new →
      Inv vs c.mkt c.seq (setOo c.oos a oo) c.toks B A evs →
      (∀ l ∈ ls, l ∈ sideOf sd B A) → (ls.map (·.key)).Nodup →
      ob'.bids = ob.bids ∧ ob'.asks = ob.asks ∧ ob'.mkt = c.mkt ∧
      ∃ evs', ob'.q.items = evs'.map Event.new ∧
        Inv vs c.mkt c.seq (setOo c.oos a oo') c.toks
          (match sd with | .bid => dropAll ls B | .ask => B)
          (match sd with | .bid => A | .ask => dropAll ls A) evs' := by
  induction ls with
  | nil =>
    intro ob ob' oo oo' B A evs h hm hq hi _ _
    cases h
    refine ⟨rfl, rfl, hm, evs, hq, ?_⟩
    cases sd <;> simpa only [dropAll_nil] using hi
  | cons lf ls ih =>
    intro ob ob' oo oo' B A evs h hm hq hi hmem hnd
    unfold cancelLeaves at h
    obtain ⟨id, h1, h⟩ := bind_ok h
    rw [unwrap_ok] at h1
    obtain ⟨⟨ob1, oo1⟩, h2, h⟩ := bind_ok h
    obtain ⟨hown, _, _, n, hu, rfl⟩ := cancelLeaf_inv h2
    rw [hm] at hu
    have hl := hmem lf (by simp)
    have hat := ooAt_setOo_same c.oos a oo
    have hid := orderAt_slot (hi.leaf_id hat hl hown)
    rw [h1] at hid
    cases hid
    have hc := hi.cancel hat hl hown (cid := lf.clientId) hu
    rw [setOo_setOo] at hc
    simp only [List.map_cons, List.nodup_cons] at hnd
    have hmem2 : ∀ l ∈ ls, l ∈ sideOf sd (dropBids sd lf.key B) (dropAsks sd lf.key A) := by
      intro x hx
      have hx1 := hmem x (by simp [hx])
      have hne : x.key ≠ lf.key := fun e => hnd.1 (by rw [← e]; exact List.mem_map_of_mem (f := (·.key)) hx)
      cases sd
      · exact List.mem_filter.2 ⟨hx1, by simpa using hne⟩
      · exact List.mem_filter.2 ⟨hx1, by simpa using hne⟩
    have := ih h (by exact hm) (evs := evs ++ [.out sd false n 0 lf.key a lf.ownerSlot lf.clientId])
      (by simp [Ob.push, hq]) hc hmem2 hnd.2
    obtain ⟨j1, j2, j3, evs', j4, j5⟩ := this
    refine ⟨j1, j2, j3, evs', j4, ?_⟩
    cases sd
    · simp only [dropAll_cons]; exact j5
    · simp only [dropAll_cons]; exact j5

theorem prune_inv {P : Params} {env : Env} {s s' : State lst} {accts : List AccMeta} {limit : Nat}
    (h : prune lst env s accts limit = .ok s') (hi : SInv P s) : SInv P s' := by
  obtain ⟨vs, evs, hv, hq, hi⟩ := hi
  unfold prune at h
  split at h
  · obtain ⟨_, _, h⟩ := bind_ok h
    obtain ⟨_, _, h⟩ := bind_ok h
    obtain ⟨_, _, h⟩ := bind_ok h
    obtain ⟨oo, hl, h⟩ := bind_ok h
    obtain ⟨_, _, h⟩ := bind_ok h
    obtain ⟨_, _, h⟩ := bind_ok h
    obtain ⟨_, _, h⟩ := bind_ok h
    obtain ⟨⟨ob, bl, al⟩, hr, h⟩ := bind_ok h
    obtain ⟨⟨ob1, oo1⟩, h1, h⟩ := bind_ok h
    obtain ⟨⟨ob2, oo2⟩, h2, h⟩ := bind_ok h
    cases h
    unfold removeAll at hr
    simp only at hr
    obtain ⟨⟨b', bl'⟩, hb, hr⟩ := bind_ok hr
    obtain ⟨⟨a', al'⟩, ha, hr⟩ := bind_ok hr
    cases hr
    obtain ⟨r1, r2, r3⟩ := removeKeys_lst hb
    obtain ⟨q1, q2, q3⟩ := removeKeys_lst ha
    have hstart := (hi.load hl).1
    obtain ⟨k1, k2, k3, evs1, k4, k5⟩ := cancelLeaves_inv (c := s.toCore) h1 rfl hq hstart (fun l hl => (r2 l hl).1) r3
    obtain ⟨m1, m2, m3, evs2, m4, m5⟩ := cancelLeaves_inv (c := s.toCore) h2 k3 k4 k5 (fun l hl => (q2 l hl).1) q3
    simp only at m5 k1 k2
    refine CInv.back hv ⟨evs2, m3, m4, ?_⟩
    rw [m1, m2, k1, k2, r1, q1]
    exact m5
  · cases h

/-! ### Consuming -/

/-- One event consumed. -/
theorem consumeOne_lst {P : Params} {env : Env} {s s' : State lst} {keys : List Nat} {evs : List EventView}
    (hq : s.q.items = evs.map Event.new) (h : consumeOne lst P env s keys = .ok (some s')) :
    ∃ v rest oo oo', evs = v :: rest ∧ v.owner ∈ keys ∧ ooAt s.oos v.owner = some oo ∧ oo.closed = false ∧
      applyEvent oo v = .ok oo' ∧
      s' = { s with oos := setOo s.oos v.owner oo', q := ⟨rest.map Event.new, s.q.cap⟩ } := by
  unfold consumeOne at h
  cases evs with
  | nil =>
    simp only [List.map_nil] at hq
    rw [show lst.peek s.q = s.q.items.head? from rfl, hq] at h
    simp at h
  | cons v rest =>
    simp only [List.map_cons] at hq
    rw [show lst.peek s.q = s.q.items.head? from rfl, hq] at h
    simp only [List.head?_cons] at h
    obtain ⟨v', hv', h⟩ := bind_ok h
    rw [Event.asView_new] at hv'
    cases hv'
    obtain ⟨r, hr, h⟩ := bind_ok h
    cases r with
    | none => cases h
    | some oo =>
      simp only at h
      obtain ⟨oo', ha, h⟩ := bind_ok h
      obtain ⟨q, hp, h⟩ := bind_ok h
      rw [unwrap_ok] at hp
      have how : (Event.new v).owner = v.owner := by cases v <;> rfl
      rw [how] at h
      unfold eventOwner at hr
      rw [how] at hr
      split at hr
      · rename_i hk
        obtain ⟨oo1, hl, hr⟩ := bind_ok hr
        obtain ⟨_, _, hr⟩ := bind_ok hr
        obtain ⟨_, _, hr⟩ := bind_ok hr
        obtain ⟨_, _, hr⟩ := bind_ok hr
        obtain ⟨_, _, hr⟩ := bind_ok hr
        cases hr
        cases h
        refine ⟨v, rest, oo, oo', rfl, P.search.sound _ _ hk, ?_, ?_, ha, ?_⟩
        · rcases loadOrders_inv hl with ⟨h1, _⟩ | ⟨_, _, hx, _⟩
          · exact h1
          · cases hx
        · rcases loadOrders_inv hl with ⟨_, h1, _⟩ | ⟨_, _, hx, _⟩
          · exact h1
          · cases hx
        · rw [hq] at hp
          cases hp
          rfl
      · cases hr

theorem consumeOne_inv {P : Params} {env : Env} {s s' : State lst} {keys : List Nat}
    (h : consumeOne lst P env s keys = .ok (some s')) (hi : SInv P s) : SInv P s' := by
  obtain ⟨vs, evs, hv, hq, hi⟩ := hi
  obtain ⟨v, rest, oo, oo', rfl, _, ho, hc, ha, rfl⟩ := consumeOne_lst hq h
  exact ⟨vs, rest, hv, rfl, hi.consume ho (applyEvent_inv (hi.shape.accts _ _ ho) hc ha)⟩

theorem consumeLoop_inv {P : Params} {env : Env} {keys : List Nat} {n : Nat} :
    ∀ {s s' : State lst}, consumeLoop lst P env keys n s = .ok s' → SInv P s → SInv P s' := by
  induction n with
  | zero => intro s s' h hi; cases h; exact hi
  | succ n ih =>
    intro s s' h hi
    unfold consumeLoop at h
    obtain ⟨r, hr, h⟩ := bind_ok h
    cases r with
    | none => cases h; exact hi
    | some s1 => exact ih h (consumeOne_inv hr hi)

theorem consumeEvents_inv {P : Params} {env : Env} {s s' : State lst} {accts : List AccMeta} {limit : Nat}
    (h : consumeEvents lst P env s accts limit = .ok s') (hi : SInv P s) : SInv P s' := by
  unfold consumeEvents at h
  obtain ⟨_, _, h⟩ := bind_ok h
  split at h
  · obtain ⟨_, _, h⟩ := bind_ok h
    obtain ⟨_, _, h⟩ := bind_ok h
    obtain ⟨_, _, h⟩ := bind_ok h
    exact consumeLoop_inv h hi
  · cases h

theorem consumePermissioned_inv {P : Params} {env : Env} {s s' : State lst} {accts : List AccMeta} {limit : Nat}
    (h : consumeEventsPermissioned lst P env s accts limit = .ok s') (hi : SInv P s) : SInv P s' := by
  unfold consumeEventsPermissioned at h
  obtain ⟨_, _, h⟩ := bind_ok h
  split at h
  · obtain ⟨_, _, h⟩ := bind_ok h
    obtain ⟨_, _, h⟩ := bind_ok h
    obtain ⟨_, _, h⟩ := bind_ok h
    obtain ⟨_, _, h⟩ := bind_ok h
    exact consumeLoop_inv h hi
  · cases h

theorem settleFunds_inv {P : Params} {env : Env} {s s' : State lst} {accts : List AccMeta}
    (h : settleFunds lst P env s accts = .ok s') (hi : SInv P s) : SInv P s' := by
  unfold settleFunds at h
  obtain ⟨a, _, h⟩ := bind_ok h
  obtain ⟨oo, ha, h⟩ := bind_ok h
  refine settle_inv h hi ?_
  unfold settleArgs at ha
  iterate 9 obtain ⟨_, _, ha⟩ := bind_ok ha
  rcases loadOrders_inv ha with ⟨h1, _⟩ | ⟨_, _, hx, _⟩
  · exact h1
  · cases hx

end Serum
