import Verif.PropsCrank

/-!
Cancelling: C32 (an owner's cancel), C39 (prune), C40 (batch cancel).
-/

namespace Serum.Props

/-! ### What withdrawing orders means -/

/-- Base units behind a resting order. -/
def baseWorth (m : Market) : Side × Leaf → Nat
  | (.ask, l) => askValue m l
  | (.bid, _) => 0
/-- Quote units behind a resting order. -/
def quoteWorth (m : Market) : Side × Leaf → Nat
  | (.bid, l) => bidValue m l
  | (.ask, _) => 0

/-- The event that reports the end of a withdrawn order. Its funds are already free. -/
def outEvent (m : Market) : Side × Leaf → EventView
  | (.bid, l) => .out .bid false (bidValue m l) 0 l.key l.owner l.ownerSlot l.clientId
  | (.ask, l) => .out .ask false (askValue m l) 0 l.key l.owner l.ownerSlot l.clientId

/-- A book side without some orders. -/
def without (ls : List (Side × Leaf)) (sd : Side) (L : List Leaf) : List Leaf :=
  L.filter fun x => !ls.contains (sd, x)

/-- An account after its orders `ls` were withdrawn: their worth became free, nothing else changed. -/
def released (m : Market) (ls : List (Side × Leaf)) (o : OpenOrders) : OpenOrders :=
  { o with
    coinFree := o.coinFree + total (baseWorth m) ls
    pcFree := o.pcFree + total (quoteWorth m) ls }

/-- Between `s` and `s'` exactly the resting orders `ls` of account `a` were withdrawn. -/
structure Withdrawn (s s' : State conc) (a : Nat) (ls : List (Side × Leaf)) : Prop where
  /-- The orders were resting orders of the account, each listed once. -/
  theirs : ∀ sd l, (sd, l) ∈ ls → l ∈ resting s sd ∧ l.owner = a
  nodup : ls.Nodup
  books : ∀ sd, resting s' sd = without ls sd (resting s sd)
  events : pending s' = pending s ++ ls.map (outEvent s.mkt)
  account : ∃ o, ooAt s.oos a = some o ∧ ooAt s'.oos a = some (released s.mkt ls o)
  others : ∀ b, b ≠ a → ooAt s'.oos b = ooAt s.oos b
  mkt : s'.mkt = s.mkt
  toks : s'.toks = s.toks
  seq : s'.seq = s.seq

/-! ### The list-level effect -/

theorem total_append {α : Type} (f : α → Nat) (l k : List α) : total f (l ++ k) = total f l + total f k := by
  simp [total]

structure Withdrew (m : Market) (a : Nat) (B A : List Leaf) (evs : List EventView) (oo : OpenOrders)
    (B' A' : List Leaf) (evs' : List EventView) (oo' : OpenOrders) (ls : List (Side × Leaf)) : Prop where
  theirs : ∀ sd l, (sd, l) ∈ ls → l ∈ sideOf sd B A ∧ l.owner = a
  nodup : ls.Nodup
  bids : B' = without ls .bid B
  asks : A' = without ls .ask A
  events : evs' = evs ++ ls.map (outEvent m)
  account : oo' = released m ls oo

theorem without_nil (sd : Side) (L : List Leaf) : without [] sd L = L := by
  unfold without; rw [List.filter_eq_self]; simp

theorem Withdrew.refl (m : Market) (a : Nat) (B A : List Leaf) (evs : List EventView) (oo : OpenOrders) :
    Withdrew m a B A evs oo B A evs oo [] :=
  ⟨by simp, .nil, (without_nil _ _).symm, (without_nil _ _).symm, by simp, by simp [released, total]⟩

theorem mem_without {ls : List (Side × Leaf)} {sd : Side} {L : List Leaf} {x : Leaf} :
    x ∈ without ls sd L ↔ x ∈ L ∧ (sd, x) ∉ ls := by
  unfold without; simp [List.mem_filter]

theorem without_append (ls ks : List (Side × Leaf)) (sd : Side) (L : List Leaf) :
    without (ls ++ ks) sd L = without ks sd (without ls sd L) := by
  unfold without
  rw [List.filter_filter]
  congr 1
  funext x
  rw [List.contains_eq_mem, List.contains_eq_mem, List.contains_eq_mem]
  by_cases h1 : (sd, x) ∈ ls <;> by_cases h2 : (sd, x) ∈ ks <;> simp [h1, h2]

theorem sideOf_without (ls : List (Side × Leaf)) (sd : Side) (B A : List Leaf) :
    sideOf sd (without ls .bid B) (without ls .ask A) = without ls sd (sideOf sd B A) := by
  cases sd <;> rfl

theorem Withdrew.trans {m a B A evs oo B1 A1 evs1 oo1 B2 A2 evs2 oo2 ls ks}
    (h : Withdrew m a B A evs oo B1 A1 evs1 oo1 ls) (k : Withdrew m a B1 A1 evs1 oo1 B2 A2 evs2 oo2 ks) :
    Withdrew m a B A evs oo B2 A2 evs2 oo2 (ls ++ ks) := by
  obtain ⟨h1, h2, h3, h4, h5, h6⟩ := h
  obtain ⟨k1, k2, k3, k4, k5, k6⟩ := k
  subst h3; subst h4
  have k1' : ∀ sd l, (sd, l) ∈ ks → (l ∈ sideOf sd B A ∧ (sd, l) ∉ ls) ∧ l.owner = a := by
    intro sd l hl
    have := k1 sd l hl
    rw [sideOf_without, mem_without] at this
    exact this
  refine ⟨?_, ?_, ?_, ?_, ?_, ?_⟩
  · intro sd l hl
    rcases List.mem_append.1 hl with hl | hl
    · exact h1 sd l hl
    · exact ⟨(k1' sd l hl).1.1, (k1' sd l hl).2⟩
  · rw [List.nodup_append]
    refine ⟨h2, k2, ?_⟩
    rintro x hx y hy rfl
    exact (k1' x.1 x.2 hy).1.2 hx
  · rw [k3, without_append]
  · rw [k4, without_append]
  · rw [k5, h5]; simp
  · rw [k6, h6]
    simp only [released, total_append, Nat.add_assoc]

/-- A key names one order of a side. -/
theorem key_unique {L : List Leaf} (h : L.Pairwise (fun a b => a.key < b.key)) {x y : Leaf} (hx : x ∈ L)
    (hy : y ∈ L) (e : x.key = y.key) : x = y := by
  induction L with
  | nil => cases hx
  | cons z zs ih =>
    rw [List.pairwise_cons] at h
    rcases List.mem_cons.1 hx with hx' | hx' <;> rcases List.mem_cons.1 hy with hy' | hy'
    · rw [hx', hy']
    · have := h.1 y hy'; rw [← hx'] at this; omega
    · have := h.1 x hx'; rw [← hy'] at this; omega
    · exact ih h.2 hx' hy'

theorem side_sorted {m B A} (h : BookOk m B A) (sd : Side) :
    (sideOf sd B A).Pairwise (fun a b => a.key < b.key) := by
  cases sd
  · exact h.bidSort
  · exact h.askSort

theorem dropKey_without {L : List Leaf} (h : L.Pairwise (fun a b => a.key < b.key)) {l : Leaf} (hl : l ∈ L)
    (sd : Side) : dropKey l.key L = without [(sd, l)] sd L := by
  unfold dropKey without
  apply List.filter_congr
  intro x hx
  by_cases e : x.key = l.key
  · have := key_unique h hx hl e
    subst this
    simp
  · have : x ≠ l := fun h => e (by rw [h])
    simp [e, this]

theorem without_other {sd sd' : Side} (h : sd' ≠ sd) (l : Leaf) (L : List Leaf) : without [(sd', l)] sd L = L := by
  unfold without
  rw [List.filter_eq_self]
  intro x _
  simp [Ne.symm h]

/-- The effect of cancelling one order, given the invariant. -/
theorem Withdrew.one {vs m seq oos l B A evs a o o'} (hi : Inv vs m seq oos l B A evs) (ho : ooAt oos a = some o)
    {sd : Side} {lf : Leaf} (hl : lf ∈ sideOf sd B A) (hown : lf.owner = a) {n : Nat}
    (hu : unlockLeaf m lf sd o = .ok (n, o')) :
    Withdrew m a B A evs o (dropBids sd lf.key B) (dropAsks sd lf.key A)
      (evs ++ [.out sd false n 0 lf.key a lf.ownerSlot lf.clientId]) o' [(sd, lf)] := by
  have hn := unlockLeaf_value hi.shape.book hl hu
  obtain ⟨_, hw⟩ := unlockLeaf_inv hu
  refine ⟨?_, by simp, ?_, ?_, ?_, ?_⟩
  · intro sd' l' hm
    simp only [List.mem_singleton, Prod.mk.injEq] at hm
    obtain ⟨rfl, rfl⟩ := hm
    exact ⟨hl, hown⟩
  · cases sd with
    | bid => exact dropKey_without hi.shape.book.bidSort hl _
    | ask => exact (without_other (by decide) _ _).symm
  · cases sd with
    | bid => exact (without_other (by decide) _ _).symm
    | ask => exact dropKey_without hi.shape.book.askSort hl _
  · subst hn; subst hown
    cases sd <;> rfl
  · subst hn
    cases sd with
    | bid => exact hw.1.trans rfl
    | ask => exact hw.1.trans rfl

theorem cancelOrderV2_effect {vs : Nat} {c : Core} {a : Nat} {ob ob' : Ob lst} {oo oo' : OpenOrders} {sd : Side}
    {id : Nat} {evs : List EventView} (h : cancelOrderV2 lst ob sd a oo id = .ok (ob', oo'))
    (hm : ob.mkt = c.mkt) (hq : ob.q.items = evs.map Event.new)
    (hi : Inv vs c.mkt c.seq (setOo c.oos a oo) c.toks ob.bids.items ob.asks.items evs) :
    ∃ l evs', l.key = id ∧ ob'.mkt = c.mkt ∧ ob'.q.items = evs'.map Event.new ∧
      Inv vs c.mkt c.seq (setOo c.oos a oo') c.toks ob'.bids.items ob'.asks.items evs' ∧
      Withdrew c.mkt a ob.bids.items ob.asks.items evs oo ob'.bids.items ob'.asks.items evs' oo' [(sd, l)] := by
  unfold cancelOrderV2 at h
  obtain ⟨⟨b, l⟩, hr, h⟩ := bind_ok h
  cases l with
  | none => cases h
  | some lf =>
    simp only at h
    simp only [Except.ok.injEq, Prod.mk.injEq] at hr
    obtain ⟨rfl, hf⟩ := hr
    have hkey : lf.key = id := by simpa using List.find?_some hf
    have hmem := List.mem_of_find?_eq_some hf
    have hmem' : lf ∈ sideOf sd ob.bids.items ob.asks.items := by
      cases sd <;> exact hmem
    obtain ⟨hown, _, _, n, hu, rfl⟩ := cancelLeaf_inv h
    have hu' : unlockLeaf c.mkt lf sd oo = .ok (n, oo') := by
      rw [← hm]; cases sd <;> exact hu
    have hc := hi.cancel (ooAt_setOo_same _ _ _) hmem' hown (cid := lf.clientId) hu'
    have hw := Withdrew.one hi (ooAt_setOo_same _ _ _) hmem' hown hu'
    rw [setOo_setOo] at hc
    subst hkey
    refine ⟨lf, evs ++ [.out sd false n 0 lf.key a lf.ownerSlot lf.clientId], rfl, ?_, ?_, ?_, ?_⟩
    · cases sd <;> exact hm
    · cases sd <;> simp [Ob.push, Ob.setSide, hq]
    · cases sd <;> exact hc
    · cases sd <;> exact hw

theorem unlockPc_not_missing {oo : OpenOrders} {n : Nat} : oo.unlockPc n ≠ .error .orderNotFound := by
  unfold OpenOrders.unlockPc
  cases h1 : checkedAdd oo.pcFree n with
  | none => simp [unwrap, bind, Except.bind]
  | some f => by_cases h2 : f ≤ oo.pcTotal <;> simp [unwrap, bind, Except.bind, rustAssert, h2, pure, Except.pure]

theorem unlockCoin_not_missing {oo : OpenOrders} {n : Nat} : oo.unlockCoin n ≠ .error .orderNotFound := by
  unfold OpenOrders.unlockCoin
  cases h1 : checkedAdd oo.coinFree n with
  | none => simp [unwrap, bind, Except.bind]
  | some f => by_cases h2 : f ≤ oo.coinTotal <;> simp [unwrap, bind, Except.bind, rustAssert, h2, pure, Except.pure]

theorem unlockLeaf_not_missing {m : Market} {l : Leaf} {sd : Side} {oo : OpenOrders} :
    unlockLeaf m l sd oo ≠ .error .orderNotFound := by
  intro h
  unfold unlockLeaf nzPrice at h
  cases sd with
  | bid =>
    by_cases h1 : l.price = 0
    · simp [h1, bind, Except.bind] at h
    · simp only [h1, if_false, bind, Except.bind] at h
      cases h2 : oo.unlockPc (wmul (wmul l.quantity l.price) m.pcLot) with
      | ok _ => rw [h2] at h; cases h
      | error e =>
        rw [h2] at h
        cases h
        exact unlockPc_not_missing h2
  | ask =>
    simp only [bind, Except.bind] at h
    cases h2 : oo.unlockCoin (wmul l.quantity m.coinLot) with
    | ok _ => rw [h2] at h; cases h
    | error e =>
      rw [h2] at h
      cases h
      exact unlockCoin_not_missing h2

/-- Only a missing order yields `OrderNotFound`. -/
theorem cancelOrderV2_missing {ob : Ob lst} {sd : Side} {a id : Nat} {oo : OpenOrders}
    (h : cancelOrderV2 lst ob sd a oo id = .error .orderNotFound) :
    ∀ x ∈ sideOf sd ob.bids.items ob.asks.items, x.key ≠ id := by
  unfold cancelOrderV2 at h
  cases hf : ((ob.side lst sd).items).find? (fun x => x.key == id) with
  | none =>
    rw [List.find?_eq_none] at hf
    intro x hx
    have := hf x (by cases sd <;> exact hx)
    simpa using this
  | some l =>
    rw [show lst.remove (ob.side lst sd) id =
      .ok (⟨(ob.side lst sd).items.filter (fun x => x.key != id), (ob.side lst sd).cap⟩, some l) from by
        show Except.ok _ = _; rw [hf]] at h
    simp only [bind, Except.bind] at h
    unfold cancelLeaf at h
    split at h
    · cases h
    · exfalso
      simp only [bind, Except.bind] at h
      cases h1 : unwrap (oo.orderAt l.ownerSlot) with
      | error e => rw [h1] at h; unfold unwrap at h1; split at h1 <;> simp_all
      | ok id' =>
        rw [h1] at h
        simp only at h
        cases h2 : checkAssert (id == id') with
        | error e => rw [h2] at h; unfold checkAssert at h2; split at h2 <;> simp_all
        | ok _ =>
          rw [h2] at h
          simp only at h
          cases h3 : checkAssert (oo.slotSide l.ownerSlot == some sd) with
          | error e => rw [h3] at h; unfold checkAssert at h3; split at h3 <;> simp_all
          | ok _ =>
            rw [h3] at h
            simp only at h
            cases h4 : unlockLeaf (ob.setSide lst sd ⟨(ob.side lst sd).items.filter (fun x => x.key != id),
              (ob.side lst sd).cap⟩).mkt l sd oo with
            | error e =>
              rw [h4] at h
              simp only [Except.error.injEq] at h
              subst h
              exact unlockLeaf_not_missing h4
            | ok r =>
              rw [h4] at h
              simp only at h
              unfold pushEv at h
              split at h
              · rename_i hx
                split at hx <;> simp_all
              · cases h

/-- Cancelling a list of ids: the orders among them that are on the book are withdrawn. -/
theorem cancelMany_effect {vs : Nat} {c : Core} {a : Nat} {L : List (Nat × Side)} :
    ∀ {ob ob' : Ob lst} {oo oo' : OpenOrders} {evs : List EventView},
    cancelMany lst a ob oo L = .ok (ob', oo') → ob.mkt = c.mkt → ob.q.items = evs.map Event.new →
    Inv vs c.mkt c.seq (setOo c.oos a oo) c.toks ob.bids.items ob.asks.items evs →
    ∃ ls evs', ob'.mkt = c.mkt ∧ ob'.q.items = evs'.map Event.new ∧
      Inv vs c.mkt c.seq (setOo c.oos a oo') c.toks ob'.bids.items ob'.asks.items evs' ∧
      Withdrew c.mkt a ob.bids.items ob.asks.items evs oo ob'.bids.items ob'.asks.items evs' oo' ls ∧
      ∀ sd x, (sd, x) ∈ ls ↔ (x.key, sd) ∈ L ∧ x ∈ sideOf sd ob.bids.items ob.asks.items := by
  induction L with
  | nil =>
    intro ob ob' oo oo' evs h hm hq hi
    cases h
    exact ⟨[], evs, hm, hq, hi, .refl _ _ _ _ _ _, by simp⟩
  | cons x xs ih =>
    intro ob ob' oo oo' evs h hm hq hi
    obtain ⟨id, sd⟩ := x
    unfold cancelMany at h
    split at h
    · rename_i ob1 oo1 h1
      obtain ⟨l, evs1, hkey, m1, q1, i1, w1⟩ := cancelOrderV2_effect h1 hm hq hi
      obtain ⟨ls, evs2, m2, q2, i2, w2, hmem⟩ := ih h m1 q1 i1
      refine ⟨(sd, l) :: ls, evs2, m2, q2, i2, w1.trans w2, ?_⟩
      have hl := (w1.theirs sd l (by simp)).1
      intro sd' y
      rw [List.mem_cons, hmem, w1.bids, w1.asks, sideOf_without, mem_without,
        List.mem_cons (a := (y.key, sd'))]
      have hs := side_sorted hi.shape.book sd
      constructor
      · rintro (e | ⟨h2, h3, _⟩)
        · simp only [Prod.mk.injEq] at e
          obtain ⟨rfl, rfl⟩ := e
          exact ⟨.inl (by rw [hkey]), hl⟩
        · exact ⟨.inr h2, h3⟩
      · rintro ⟨h2, h3⟩
        by_cases e : (sd', y) = (sd, l)
        · exact .inl e
        · right
          refine ⟨?_, h3, by simpa using e⟩
          rcases h2 with h2 | h2
          · simp only [Prod.mk.injEq] at h2
            obtain ⟨e1, rfl⟩ := h2
            exact absurd (by rw [key_unique hs h3 hl (by rw [e1, hkey])]) e
          · exact h2
    · rename_i h1
      obtain ⟨ls, evs2, m2, q2, i2, w2, hmem⟩ := ih h hm hq hi
      refine ⟨ls, evs2, m2, q2, i2, w2, ?_⟩
      intro sd' y
      rw [hmem, List.mem_cons]
      constructor
      · rintro ⟨h2, h3⟩
        exact ⟨.inr h2, h3⟩
      · rintro ⟨h2, h3⟩
        refine ⟨?_, h3⟩
        rcases h2 with h2 | h2
        · simp only [Prod.mk.injEq] at h2
          obtain ⟨e1, rfl⟩ := h2
          exact absurd e1 (cancelOrderV2_missing h1 y h3)
        · exact h2
    · cases h

/-- Cancelling a list of removed leaves one after the other. -/
theorem cancelLeaves_effect {vs : Nat} {c : Core} {a : Nat} {sd : Side} {ls : List Leaf} :
    ∀ {ob ob' : Ob lst} {oo oo' : OpenOrders} {B A : List Leaf} {evs : List EventView},
      cancelLeaves lst sd a ob oo ls = .ok (ob', oo') → ob.mkt = c.mkt → ob.q.items = evs.map Event.new →
      Inv vs c.mkt c.seq (setOo c.oos a oo) c.toks B A evs →
      (∀ l ∈ ls, l ∈ sideOf sd B A) → (ls.map (·.key)).Nodup →
      ob'.bids = ob.bids ∧ ob'.asks = ob.asks ∧ ob'.mkt = c.mkt ∧
      ∃ B' A' evs', ob'.q.items = evs'.map Event.new ∧
        Inv vs c.mkt c.seq (setOo c.oos a oo') c.toks B' A' evs' ∧
        Withdrew c.mkt a B A evs oo B' A' evs' oo' (ls.map fun l => (sd, l)) := by
  induction ls with
  | nil =>
    intro ob ob' oo oo' B A evs h hm hq hi _ _
    cases h
    exact ⟨rfl, rfl, hm, B, A, evs, hq, hi, .refl _ _ _ _ _ _⟩
  | cons lf ls ih =>
    intro ob ob' oo oo' B A evs h hm hq hi hmem hnd
    unfold cancelLeaves at h
    obtain ⟨id, h1, h⟩ := bind_ok h
    rw [unwrap_ok] at h1
    obtain ⟨⟨ob1, oo1⟩, h2, h⟩ := bind_ok h
    obtain ⟨hown, _, _, n, hu, rfl⟩ := cancelLeaf_inv h2
    rw [hm] at hu
    have hl := hmem lf (by simp)
    have hat := ooAt_setOo_same c.oos a oo
    have hid := orderAt_slot (hi.leaf_id hat hl hown)
    rw [h1] at hid
    cases hid
    have hc := hi.cancel hat hl hown (cid := lf.clientId) hu
    have hw := Withdrew.one hi hat hl hown hu
    rw [setOo_setOo] at hc
    simp only [List.map_cons, List.nodup_cons] at hnd
    have hmem2 : ∀ l ∈ ls, l ∈ sideOf sd (dropBids sd lf.key B) (dropAsks sd lf.key A) := by
      intro x hx
      have hx1 := hmem x (by simp [hx])
      have hne : x.key ≠ lf.key := fun e => hnd.1 (by rw [← e]; exact List.mem_map_of_mem (f := (·.key)) hx)
      cases sd
      · exact List.mem_filter.2 ⟨hx1, by simpa using hne⟩
      · exact List.mem_filter.2 ⟨hx1, by simpa using hne⟩
    have := ih h (by exact hm) (evs := evs ++ [.out sd false n 0 lf.key a lf.ownerSlot lf.clientId])
      (by simp [Ob.push, hq]) hc hmem2 hnd.2
    obtain ⟨j1, j2, j3, B', A', evs', j4, j5, j6⟩ := this
    exact ⟨j1, j2, j3, B', A', evs', j4, j5, hw.trans j6⟩

/-! ### From lists to states -/

theorem pending_of {s' : State conc} {t : State lst} (h : concLst.RS s' t) {evs : List EventView}
    (hq : t.q.items = evs.map Event.new) : pending s' = evs := by
  have hiter : s'.q.iter = evs.map Event.new := by
    rw [Queue.iter_eq h.q.1, ← hq, h.q.2]; rfl
  unfold pending
  rw [hiter, List.filterMap_map]
  have : (fun e => e.asView.toOption) ∘ Event.new = (some : EventView → Option EventView) := by
    funext v
    simp [Function.comp, Event.asView_new, Except.toOption]
  rw [this, List.filterMap_some]

theorem resting_of {s' : State conc} {t : State lst} (h : concLst.RS s' t) (sd : Side) :
    resting s' sd = sideOf sd t.bids.items t.asks.items := by
  cases sd
  · show s'.bids.contents = t.bids.items
    rw [h.bids.2]; rfl
  · show s'.asks.contents = t.asks.items
    rw [h.asks.2]; rfl

theorem Withdrawn.of {s s' : State conc} {t : State lst} (h : concLst.RS s' t) {a : Nat} {ls : List (Side × Leaf)}
    {ob : Ob lst} {oo oo' : OpenOrders} {evs' : List EventView} (ht : t = (absState s).back lst ob a oo')
    (hm : ob.mkt = s.mkt) (hq : ob.q.items = evs'.map Event.new) (ho : ooAt s.oos a = some oo)
    (hw : Withdrew s.mkt a s.bids.contents s.asks.contents (pending s) oo ob.bids.items ob.asks.items evs' oo' ls) :
    Withdrawn s s' a ls := by
  subst ht
  have hcore : s'.toCore = ((absState s).back lst ob a oo').toCore := h.core
  have hoos : s'.oos = setOo s.oos a oo' := congrArg Core.oos hcore
  refine ⟨?_, hw.nodup, ?_, ?_, ⟨oo, ho, ?_⟩, ?_, ?_, ?_, ?_⟩
  · intro sd l hl
    have := hw.theirs sd l hl
    cases sd <;> exact this
  · intro sd
    rw [resting_of h]
    cases sd
    · exact hw.bids
    · exact hw.asks
  · rw [pending_of h hq]; exact hw.events
  · rw [hoos, ooAt_setOo_same, hw.account]
  · intro b hb
    rw [hoos, ooAt_setOo, if_neg hb]
  · exact (congrArg Core.mkt hcore).trans hm
  · exact (congrArg Core.toks hcore).trans rfl
  · exact (congrArg Core.seq hcore).trans rfl

theorem cancelArgs_inv {env : Env} {c : Core} {a : CancelAccts} {oo : OpenOrders} (h : cancelArgs env c a = .ok oo) :
    a.signer.signer = true ∧ ooAt c.oos a.oo.key = some oo ∧ oo.closed = false ∧ oo.owner = a.signer.key ∧
    c.mkt.bids ≠ c.mkt.asks := by
  unfold cancelArgs at h
  obtain ⟨_, _, h⟩ := bind_ok h
  obtain ⟨_, h1, h⟩ := bind_ok h
  obtain ⟨oo2, hl, h⟩ := bind_ok h
  obtain ⟨_, hb, h⟩ := bind_ok h
  obtain ⟨_, _, h⟩ := bind_ok h
  obtain ⟨_, _, h⟩ := bind_ok h
  cases h
  have hne : c.mkt.bids ≠ c.mkt.asks := by
    unfold orAssert loadBids at hb
    split at hb
    · rename_i x hx
      split at hx
      · cases hx
      · simpa using checkAssert_ok.1 hx
    · cases hb
  rcases loadOrders_inv hl with ⟨h2, h3, h4⟩ | ⟨_, _, h5, _⟩
  · refine ⟨checkAssert_ok.1 h1, h2, h3, ?_, hne⟩
    rcases h4 with h4 | h4
    · cases h4
    · injection h4 with h4; exact h4.symm
  · cases h5

theorem absState_q {s : State conc} {P : Params} (hg : Good P s) (hqi : s.q.iter = (pending s).map Event.new) :
    (absState s).q.items = (pending s).map Event.new := by
  rw [← hqi, Queue.iter_eq hg.rs.q.1]; rfl

/-- C32, safety. A successful cancel, in any reachable state, was signed by the owner of the account, removed
exactly the named order, which was that account's, freed exactly its worth and queued its out event. -/
theorem cancel_effect {P : Params} {s s' : State conc} (h : Reach P s) (hq : s.seq ≤ W64) {env : Env}
    {accts : List AccMeta} {sd : Side} {id : Nat} (hc : cancelV2 conc env s accts sd id = .ok s') :
    ∃ m b k oo signer eq rest l o, accts = m :: b :: k :: oo :: signer :: eq :: rest ∧
      signer.signer = true ∧ ooAt s.oos oo.key = some o ∧ o.owner = signer.key ∧ l.key = id ∧
      Withdrawn s s' oo.key [(sd, l)] := by
  obtain ⟨vs, hv, hqi, hi⟩ := h.view hq
  have hg := h.good hq
  obtain ⟨t, ht, hrs⟩ := Sim.ok_right (Refines.sim_cancelV2 hg.rs env accts sd id) hc
  unfold cancelV2 at ht
  obtain ⟨a, hp, ht⟩ := bind_ok ht
  obtain ⟨oo, ha, ht⟩ := bind_ok ht
  obtain ⟨⟨ob, oo1⟩, h1, ht⟩ := bind_ok ht
  simp only [pure, Except.pure, Except.ok.injEq] at ht
  obtain ⟨k1, k2, k3, k4, _⟩ := cancelArgs_inv ha
  have hst : setOo (absState s).oos a.oo.key oo = s.oos := setOo_same k2
  obtain ⟨l, evs', e1, e2, e3, e4, e5⟩ := cancelOrderV2_effect (c := s.toCore) (vs := vs) h1 rfl
    (absState_q hg hqi) (by rw [show setOo s.toCore.oos a.oo.key oo = s.oos from hst]; exact hi)
  unfold parseCancel at hp
  split at hp
  · rename_i m b k oo0 signer eq rest
    cases hp
    exact ⟨m, b, k, oo0, signer, eq, rest, l, oo, rfl, k1, k2, k4, e1,
      Withdrawn.of hrs ht.symm e2 e3 k2 e5⟩
  · cases hp

/-! ### Cancelling works -/

theorem unlockLeaf_ok {vs m seq oos l B A evs a o} (hi : Inv vs m seq oos l B A evs) (ho : ooAt oos a = some o)
    {sd : Side} {lf : Leaf} (hl : lf ∈ sideOf sd B A) (hown : lf.owner = a)
    (f1 : o.coinFree + bookLock .ask m (only a) A + evSum (EventView.lock .ask) (only a) evs < W64)
    (f2 : o.pcFree + bookLock .bid m (only a) B + evSum (EventView.lock .bid) (only a) evs < W64) :
    ∃ n o', unlockLeaf m lf sd o = .ok (n, o') := by
  have t1 := hi.money.coinTot a o ho
  have t2 := hi.money.pcTot a o ho
  rw [Nat.mod_eq_of_lt f1] at t1
  rw [Nat.mod_eq_of_lt f2] at t2
  cases sd with
  | bid =>
    have hp := hi.shape.book.bidPrice lf hl
    have hval := hi.shape.book.bidVal lf hl
    have hlot := hi.shape.mkt.pcLot
    have hmem : bidValue m lf ≤ bookLock .bid m (only a) B := by
      rw [bidLock_only]
      exact total_mem _ (List.mem_filter.2 ⟨hl, by simpa using hown⟩)
    have h5 : lf.quantity * lf.price < W64 := Nat.lt_of_le_of_lt (Nat.le_mul_of_pos_right _ hlot) hval
    unfold bidValue at hmem
    refine ⟨lf.quantity * lf.price * m.pcLot, { o with pcFree := o.pcFree + lf.quantity * lf.price * m.pcLot }, ?_⟩
    unfold unlockLeaf nzPrice
    simp only [Nat.pos_iff_ne_zero.1 hp, if_false, bind, Except.bind, wmul_eq h5, wmul_eq hval, OpenOrders.unlockPc]
    generalize lf.quantity * lf.price * m.pcLot = v at *
    have e1 : checkedAdd o.pcFree v = some (o.pcFree + v) := checkedAdd_some.2 ⟨by omega, rfl⟩
    have e2 : rustAssert (decide (o.pcFree + v ≤ o.pcTotal)) = .ok () := rustAssert_ok.2 (by simp; omega)
    simp only [e1, unwrap, e2]
    rfl
  | ask =>
    have hval := hi.shape.book.askVal lf hl
    have hmem : askValue m lf ≤ bookLock .ask m (only a) A := by
      rw [askLock_only]
      exact total_mem _ (List.mem_filter.2 ⟨hl, by simpa using hown⟩)
    unfold askValue at hmem
    refine ⟨lf.quantity * m.coinLot, { o with coinFree := o.coinFree + lf.quantity * m.coinLot }, ?_⟩
    unfold unlockLeaf
    simp only [bind, Except.bind, wmul_eq hval, OpenOrders.unlockCoin]
    generalize lf.quantity * m.coinLot = v at *
    have e1 : checkedAdd o.coinFree v = some (o.coinFree + v) := checkedAdd_some.2 ⟨by omega, rfl⟩
    have e2 : rustAssert (decide (o.coinFree + v ≤ o.coinTotal)) = .ok () := rustAssert_ok.2 (by simp; omega)
    simp only [e1, unwrap, e2]
    rfl

theorem find_key {L : List Leaf} (h : L.Pairwise (fun a b => a.key < b.key)) {l : Leaf} (hl : l ∈ L) :
    L.find? (fun x => x.key == l.key) = some l := by
  cases hf : L.find? (fun x => x.key == l.key) with
  | none =>
    rw [List.find?_eq_none] at hf
    exact absurd (beq_self_eq_true _) (hf l hl)
  | some x =>
    rw [key_unique h (List.mem_of_find?_eq_some hf) hl (by simpa using List.find?_some hf)]

theorem cancelOrderV2_ok {vs : Nat} {c : Core} {a : Nat} {ob : Ob lst} {oo : OpenOrders} {sd : Side}
    {evs : List EventView} (hm : ob.mkt = c.mkt)
    (hi : Inv vs c.mkt c.seq c.oos c.toks ob.bids.items ob.asks.items evs) (ho : ooAt c.oos a = some oo)
    {lf : Leaf} (hl : lf ∈ sideOf sd ob.bids.items ob.asks.items) (hown : lf.owner = a)
    (hroom : ob.q.items.length < ob.q.cap)
    (f1 : oo.coinFree + bookLock .ask c.mkt (only a) ob.asks.items + evSum (EventView.lock .ask) (only a) evs < W64)
    (f2 : oo.pcFree + bookLock .bid c.mkt (only a) ob.bids.items + evSum (EventView.lock .bid) (only a) evs < W64) :
    ∃ r, cancelOrderV2 lst ob sd a oo lf.key = .ok r := by
  obtain ⟨n, o', hu⟩ := unlockLeaf_ok hi ho hl hown f1 f2
  obtain ⟨_, s1, s2⟩ := slot_parts (hi.leaf_id ho hl hown)
  have hf : ((ob.side lst sd).items).find? (fun x => x.key == lf.key) = some lf := by
    have := find_key (side_sorted hi.shape.book sd) hl
    cases sd <;> exact this
  have hpush : ∀ (b : Ob lst) v, b.q = ob.q → ∃ b2, pushEv lst b v = .ok b2 := by
    intro b v hb
    unfold pushEv
    rw [show lst.push b.q (Event.new v) = some ⟨b.q.items ++ [Event.new v], b.q.cap⟩ from
      if_pos (by rw [hb]; exact hroom)]
    exact ⟨_, rfl⟩
  have hm' : ∀ b, (Ob.setSide lst ob sd b).mkt = c.mkt := by intro b; cases sd <;> exact hm
  have hq' : ∀ b, (Ob.setSide lst ob sd b).q = ob.q := by intro b; cases sd <;> rfl
  unfold cancelOrderV2
  rw [show lst.remove (ob.side lst sd) lf.key =
    .ok (⟨(ob.side lst sd).items.filter (fun x => x.key != lf.key), (ob.side lst sd).cap⟩, some lf) from by
      show Except.ok _ = _; rw [hf]]
  simp only [bind, Except.bind]
  unfold cancelLeaf
  rw [if_neg (by simpa using hown)]
  simp only [s1, s2, unwrap, checkAssert, beq_self_eq_true, if_true, bind, Except.bind, hm', hu]
  obtain ⟨b2, hb2⟩ := hpush (Ob.setSide lst ob sd ⟨(ob.side lst sd).items.filter (fun x => x.key != lf.key),
    (ob.side lst sd).cap⟩) (.out sd false n 0 lf.key a lf.ownerSlot lf.clientId) (hq' _)
  rw [hb2]
  exact ⟨_, rfl⟩

/-- Accounts of a cancel. -/
def cancelAccts (s : State conc) (a owner : Nat) : List AccMeta :=
  [⟨s.mkt.ownAddress, false⟩, ⟨s.mkt.bids, false⟩, ⟨s.mkt.asks, false⟩, ⟨a, false⟩, ⟨owner, true⟩,
    ⟨s.mkt.eventQ, false⟩]

theorem orBids_ne {c : Core} {a : AccMeta} {u : Unit} (h : orAssert (loadBids c a) = .ok u) :
    c.mkt.bids ≠ c.mkt.asks := by
  unfold orAssert loadBids at h
  split at h
  · rename_i x hx
    split at hx
    · cases hx
    · simpa using checkAssert_ok.1 hx
  · cases h

theorem batch_ne {env : Env} {s s' : State conc} {accts : List AccMeta} {cids : List Nat}
    (h : cancelByClientIds conc env s accts cids = .ok s') : s.mkt.bids ≠ s.mkt.asks := by
  unfold cancelByClientIds at h
  obtain ⟨_, _, h⟩ := bind_ok h
  simp only at h
  obtain ⟨_, ha, h⟩ := bind_ok h
  exact (cancelArgs_inv ha).2.2.2.2

/-- An instruction that works on the books needs two distinct book accounts; the others leave them alone. -/
theorem process_books {P : Params} {env : Env} {s s' : State conc} {accts : List AccMeta} {ix : Instruction}
    (h : process conc P env s accts ix = .ok s') :
    s.mkt.bids ≠ s.mkt.asks ∨ (s'.bids = s.bids ∧ s'.asks = s.asks) := by
  unfold process at h
  split at h
  · cases h
  · cases h
  · cases h; exact .inr ⟨rfl, rfl⟩
  · exact .inr (consumeEvents_keeps h).2.2.2.2
  · cases h
  · obtain ⟨_, _, _, e1, e2, _⟩ := settleFunds_keeps h
    exact .inr ⟨e1, e2⟩
  · cases h
  · right
    unfold disableMarket at h
    split at h
    · iterate 3 obtain ⟨_, _, h⟩ := bind_ok h
      cases h; exact ⟨rfl, rfl⟩
    · cases h
  · right
    unfold sweepFees at h
    split at h
    · iterate 8 obtain ⟨_, _, h⟩ := bind_ok h
      cases h; exact ⟨rfl, rfl⟩
    · cases h
  · cases h
  · left
    unfold newOrderV3 at h
    obtain ⟨a, _, h⟩ := bind_ok h
    obtain ⟨_, ha, h⟩ := bind_ok h
    unfold newOrderArgs at ha
    iterate 12 obtain ⟨_, _, ha⟩ := bind_ok ha
    obtain ⟨_, hb, ha⟩ := bind_ok ha
    exact orBids_ne hb
  · left
    unfold cancelV2 at h
    obtain ⟨a, _, h⟩ := bind_ok h
    obtain ⟨_, ha, h⟩ := bind_ok h
    exact (cancelArgs_inv ha).2.2.2.2
  · left
    unfold cancelByClientIdV2 at h
    obtain ⟨a, _, h⟩ := bind_ok h
    obtain ⟨_, _, h⟩ := bind_ok h
    obtain ⟨_, ha, h⟩ := bind_ok h
    exact (cancelArgs_inv ha).2.2.2.2
  · left
    unfold sendTake at h
    obtain ⟨a, _, h⟩ := bind_ok h
    obtain ⟨_, ha, h⟩ := bind_ok h
    unfold sendTakeArgs at ha
    iterate 12 obtain ⟨_, _, ha⟩ := bind_ok ha
    obtain ⟨_, hb, ha⟩ := bind_ok ha
    exact orBids_ne hb
  · right
    unfold closeOpenOrders at h
    split at h
    · iterate 4 obtain ⟨_, _, h⟩ := bind_ok h
      cases h; exact ⟨rfl, rfl⟩
    · cases h
  · right
    unfold initOpenOrders at h
    split at h
    · split at h
      · iterate 4 obtain ⟨_, _, h⟩ := bind_ok h
        cases h; exact ⟨rfl, rfl⟩
      · cases h
    · cases h
  · left
    unfold prune at h
    split at h
    · iterate 4 obtain ⟨_, _, h⟩ := bind_ok h
      obtain ⟨_, hb, h⟩ := bind_ok h
      exact orBids_ne hb
    · cases h
  · exact .inr (consumePermissioned_keeps h).2.2.2.2
  · left
    exact batch_ne h
  · left
    unfold replaceOrders at h
    obtain ⟨_, _, h⟩ := bind_ok h
    obtain ⟨_, hc, h⟩ := bind_ok h
    exact batch_ne hc
  · left
    unfold replaceOrders at h
    obtain ⟨_, _, h⟩ := bind_ok h
    obtain ⟨_, hc, h⟩ := bind_ok h
    exact batch_ne hc

/-- If one account serves as both book sides, nothing can ever rest in them. -/
theorem distinct_books {P : Params} {s : State conc} (h : Reach P s) (he : s.mkt.bids = s.mkt.asks) :
    ∀ sd, resting s sd = [] := by
  induction h with
  | start h =>
    obtain ⟨n, hb⟩ := h.bids
    obtain ⟨k, ha⟩ := h.asks
    intro sd
    cases sd
    · show Slab.contents _ = []; rw [hb]; rfl
    · show Slab.contents _ = []; rw [ha]; rfl
  | step h hs ih =>
    cases hs with
    | @instr _ env accts data hn hp =>
      have hk := (processRaw_keeps hp).eq
      have he' := he
      rw [hk] at he'
      have ih' := ih he'
      unfold processRaw at hp
      split at hp
      · rcases process_books hp with hne | ⟨e1, e2⟩
        · exact absurd he' hne
        · intro sd
          have := ih' sd
          cases sd
          · show Slab.contents _ = []; rw [e1]; exact this
          · show Slab.contents _ = []; rw [e2]; exact this
      · cases hp
    | purge => exact ih he
    | token => exact ih he

theorem cancelArgs_ok {env : Env} {s : State conc} (hf : goodFlags s.mkt.flags = true)
    (hb : s.mkt.bids ≠ s.mkt.asks) {a : Nat} {o : OpenOrders} (ho : ooAt s.oos a = some o) (hc : o.closed = false) :
    cancelArgs env s.toCore ⟨⟨s.mkt.ownAddress, false⟩, ⟨s.mkt.bids, false⟩, ⟨s.mkt.asks, false⟩, ⟨a, false⟩,
      ⟨o.owner, true⟩, ⟨s.mkt.eventQ, false⟩⟩ = .ok o := by
  have e1 : loadMarket s.toCore ⟨s.mkt.ownAddress, false⟩ true = .ok () := by
    unfold loadMarket
    simp only [beq_self_eq_true, checkAssert, if_true, bind, Except.bind, goodFlags_load hf]
  have e2 : loadOrders s.toCore env a (some o.owner) false none = .ok o := by
    unfold loadOrders
    rw [ho]
    simp [hc]
  have e3 : loadBids s.toCore ⟨s.mkt.bids, false⟩ = .ok () := by
    unfold loadBids
    simp [checkAssert, hb]
  have e4 : loadAsks s.toCore ⟨s.mkt.asks, false⟩ = .ok () := by simp [loadAsks]
  have e5 : loadEventQ s.toCore ⟨s.mkt.eventQ, false⟩ = .ok () := by simp [loadEventQ]
  unfold cancelArgs
  simp only [e1, e2, e3, e4, e5, orAssert, bind, Except.bind, signed, checkAssert, if_true]
  rfl

/-- Everything an account holds, of each token, is below 2^64. -/
abbrev HoldsFit (s : State conc) (a : Nat) (o : OpenOrders) : Prop :=
  baseHeld s a o < 2 ^ 64 ∧ quoteHeld s a o < 2 ^ 64

/-- C32. In every reachable state, also of a disabled market: if the event queue has room and what the account
holds fits in 64 bits, the owner's cancel of a resting order succeeds, removes exactly that order, frees exactly
its worth and queues its out event. -/
theorem cancel_works {P : Params} {s : State conc} (h : Reach P s) (hq : s.seq ≤ W64) (env : Env) {sd : Side}
    {l : Leaf} {o : OpenOrders} (hl : l ∈ resting s sd) (ho : ooAt s.oos l.owner = some o)
    (hroom : (pending s).length < s.q.buf.length) (hfit : HoldsFit s l.owner o) :
    ∃ s', cancelV2 conc env s (cancelAccts s l.owner o.owner) sd l.key = .ok s' ∧
      Withdrawn s s' l.owner [(sd, l)] := by
  obtain ⟨vs, hv, hqi, hi⟩ := h.view hq
  have hg := h.good hq
  have hne : s.mkt.bids ≠ s.mkt.asks := by
    intro e
    rw [distinct_books h e sd] at hl
    cases hl
  have hcl : o.closed = false := by
    cases hc : o.closed with
    | false => rfl
    | true => exact absurd rfl ((close_is_safe h hq).2 l.owner o ho (.inl hc) |>.2.2.1 sd l hl)
  have hl' : l ∈ sideOf sd s.bids.contents s.asks.contents := by cases sd <;> exact hl
  have hL := absState_q hg hqi
  have hfit' := hfit
  unfold HoldsFit baseHeld quoteHeld at hfit'
  obtain ⟨r, hr⟩ := cancelOrderV2_ok (c := s.toCore) (vs := vs) (ob := (absState s).ob lst s.mkt) (evs := pending s)
    rfl hi ho hl' rfl
    (by show (absState s).q.items.length < s.q.buf.length; rw [hL]; simpa using hroom)
    (by rw [askLock_only, evSum_only _ _ lock_ask]; exact hfit'.1)
    (by rw [bidLock_only, evSum_only _ _ lock_bid]; exact hfit'.2)
  have hlst : ∃ t, cancelV2 lst env (absState s) (cancelAccts s l.owner o.owner) sd l.key = .ok t := by
    refine ⟨(absState s).back lst r.1 l.owner r.2, ?_⟩
    unfold cancelV2
    rw [show parseCancel (cancelAccts s l.owner o.owner) = .ok ⟨⟨s.mkt.ownAddress, false⟩, ⟨s.mkt.bids, false⟩,
      ⟨s.mkt.asks, false⟩, ⟨l.owner, false⟩, ⟨o.owner, true⟩, ⟨s.mkt.eventQ, false⟩⟩ from rfl]
    have := cancelArgs_ok (env := env) h.flags hne ho hcl
    rw [show (absState s).toCore = s.toCore from rfl]
    simp only [bind, Except.bind, this]
    rw [hr]
    rfl
  obtain ⟨t, ht⟩ := hlst
  obtain ⟨s', h3, _⟩ := Sim.ok_left (Refines.sim_cancelV2 hg.rs env _ sd l.key) ht
  refine ⟨s', h3, ?_⟩
  obtain ⟨m, b, k, oo, signer, eq, rest, l2, o2, e1, _, _, _, e5, e6⟩ := cancel_effect h hq h3
  simp only [cancelAccts, List.cons.injEq] at e1
  obtain ⟨_, _, _, rfl, _⟩ := e1
  have hl2 := (e6.theirs sd l2 (by simp)).1
  have : l2 = l := by
    have hs := side_sorted hi.shape.book sd
    refine key_unique hs ?_ hl' e5
    cases sd <;> exact hl2
  subst this
  exact e6

-- trader 12's bid of three lots at 900
example : Reach Demo.P Demo.s4 ∧ (resting Demo.s4 .bid).map (fun l => (l.owner, l.key)) = [(42, Demo.bidId)] ∧
    (pending Demo.s4).length < Demo.s4.q.buf.length ∧
    (ooAt Demo.s4.oos 42).map (fun o => decide (HoldsFit Demo.s4 42 o)) = some true ∧
    cancelV2 conc Demo.env Demo.s4 (Demo.cancelAccts 42 12) .bid Demo.bidId = .ok Demo.s5 ∧
    (ooAt Demo.s5.oos 42).map (·.pcFree) = (ooAt Demo.s4.oos 42).map (·.pcFree + 3 * 900 * 10) :=
  ⟨Demo.r4, by decide +kernel, by decide +kernel, by decide +kernel, Demo.e5, by decide +kernel⟩

/-! ### By client id -/

/-- The client id an account recorded for the order in a slot. -/
def recordedId (o : OpenOrders) (slot : Nat) : Option Nat := o.clientIds[slot]?

theorem mem_withIds {o : OpenOrders} {c id : Nat} {sd : Side} :
    (c, id, sd) ∈ o.ordersWithClientIds ↔ ∃ i, o.slot i = some (sd, id) ∧ recordedId o i = some c ∧ c ≠ 0 := by
  unfold OpenOrders.ordersWithClientIds
  rw [List.mem_filterMap]
  constructor
  · rintro ⟨i, hi, h⟩
    rw [mem_filledSlots] at hi
    split at h
    · rename_i c' id' sd' h1 h2 h3
      split at h
      · cases h
      · rename_i hc
        simp only [Option.some.injEq, Prod.mk.injEq] at h
        obtain ⟨rfl, rfl, rfl⟩ := h
        refine ⟨i, ?_, h1, by simpa using hc⟩
        unfold OpenOrders.slot
        rw [if_pos hi.1, h3, h2]
    · cases h
  · rintro ⟨i, h1, h2, h3⟩
    obtain ⟨g1, g2, g3⟩ := slot_parts h1
    refine ⟨i, (mem_filledSlots _ _).2 ⟨g1, by rw [g2]; simp⟩, ?_⟩
    unfold recordedId at h2
    unfold OpenOrders.orderAt at g3
    rw [h2, g3, g2]
    simp [h3]

theorem mem_select {o : OpenOrders} {cids : List Nat} {id : Nat} {sd : Side} :
    (id, sd) ∈ selectByClientIds o cids ↔
      ∃ i c, o.slot i = some (sd, id) ∧ recordedId o i = some c ∧ c ≠ 0 ∧ c ∈ cids := by
  unfold selectByClientIds
  rw [List.mem_map]
  constructor
  · rintro ⟨⟨c, x⟩, h1, rfl⟩
    obtain ⟨h2, h3⟩ := List.mem_filter.1 h1
    obtain ⟨i, g1, g2, g3⟩ := mem_withIds.1 h2
    exact ⟨i, c, g1, g2, g3, by simpa using h3⟩
  · rintro ⟨i, c, h1, h2, h3, h4⟩
    exact ⟨(c, id, sd), List.mem_filter.2 ⟨mem_withIds.2 ⟨i, h1, h2, h3⟩, by simpa using h4⟩, rfl⟩

/-- Resting orders selected by client ids are those of the account whose slot records one of the ids. -/
theorem select_resting {vs m seq oos l B A evs a o} (hi : Inv vs m seq oos l B A evs) (ho : ooAt oos a = some o)
    {cids : List Nat} {sd : Side} {x : Leaf} (hx : x ∈ sideOf sd B A) :
    (x.key, sd) ∈ selectByClientIds o cids ↔
      x.owner = a ∧ ∃ c, recordedId o x.ownerSlot = some c ∧ c ≠ 0 ∧ c ∈ cids := by
  have hs := hi.shape.leaf_slot hx
  rw [mem_select]
  constructor
  · rintro ⟨i, c, h1, h2⟩
    have h1' : slotsOf oos a i = some (sd, x.key) := by unfold slotsOf; rw [ho]; exact h1
    obtain ⟨e1, e2⟩ := hi.shape.uniq _ _ _ _ _ _ _ hs h1' rfl
    subst e2
    exact ⟨e1, c, h2⟩
  · rintro ⟨rfl, c, h2⟩
    refine ⟨x.ownerSlot, c, ?_, h2⟩
    unfold slotsOf at hs
    rw [ho] at hs
    exact hs

theorem findClientId_slot {o : OpenOrders} {cid id : Nat} {sd : Side} (h : findClientId o cid = .ok (id, sd)) :
    ∃ i, o.slot i = some (sd, id) ∧ recordedId o i = some cid := by
  unfold findClientId at h
  split at h
  · rename_i e he
    obtain ⟨c, id', sd'⟩ := e
    cases h
    have h1 : cid = c := by simpa using List.find?_some he
    obtain ⟨i, h2, h3, _⟩ := mem_withIds.1 (List.mem_of_find?_eq_some he)
    exact ⟨i, h2, by rw [h1]; exact h3⟩
  · cases h

/-- A successful cancel by client id: the signer owns the account, and one order recorded under that id is
withdrawn. -/
theorem cancel_by_id_effect {P : Params} {s s' : State conc} (h : Reach P s) (hq : s.seq ≤ W64) {env : Env}
    {accts : List AccMeta} {cid : Nat} (hc : cancelByClientIdV2 conc env s accts cid = .ok s') :
    ∃ m b k oo signer eq rest sd l o, accts = m :: b :: k :: oo :: signer :: eq :: rest ∧ cid ≠ 0 ∧
      signer.signer = true ∧ ooAt s.oos oo.key = some o ∧ o.owner = signer.key ∧
      recordedId o l.ownerSlot = some cid ∧ Withdrawn s s' oo.key [(sd, l)] := by
  obtain ⟨vs, hv, hqi, hi⟩ := h.view hq
  have hg := h.good hq
  obtain ⟨t, ht, hrs⟩ := Sim.ok_right (Refines.sim_cancelByClientIdV2 hg.rs env accts cid) hc
  unfold cancelByClientIdV2 at ht
  obtain ⟨a, hp, ht⟩ := bind_ok ht
  obtain ⟨_, hz, ht⟩ := bind_ok ht
  obtain ⟨oo, ha, ht⟩ := bind_ok ht
  obtain ⟨⟨id, sd⟩, hf, ht⟩ := bind_ok ht
  obtain ⟨⟨ob, oo1⟩, h1, ht⟩ := bind_ok ht
  simp only [pure, Except.pure, Except.ok.injEq] at ht
  obtain ⟨k1, k2, k3, k4, _⟩ := cancelArgs_inv ha
  have hst : setOo (absState s).oos a.oo.key oo = s.oos := setOo_same k2
  obtain ⟨l, evs', e1, e2, e3, e4, e5⟩ := cancelOrderV2_effect (c := s.toCore) (vs := vs) h1 rfl
    (absState_q hg hqi) (by rw [show setOo s.toCore.oos a.oo.key oo = s.oos from hst]; exact hi)
  obtain ⟨i, g1, g2⟩ := findClientId_slot hf
  have hl := (e5.theirs sd l (by simp)).1
  have hs := hi.shape.leaf_slot (l := l) (sd := sd) (by cases sd <;> exact hl)
  have g1' : slotsOf s.oos a.oo.key i = some (sd, l.key) := by
    unfold slotsOf; rw [show ooAt s.oos a.oo.key = some oo from k2, e1]; exact g1
  obtain ⟨_, rfl⟩ := hi.shape.uniq _ _ _ _ _ _ _ hs g1' rfl
  unfold parseCancel at hp
  split at hp
  · rename_i m b k oo0 signer eq rest
    cases hp
    exact ⟨m, b, k, oo0, signer, eq, rest, sd, l, oo, rfl, by simpa using checkAssert_ok.1 hz, k1, k2, k4, g2,
      Withdrawn.of hrs ht.symm e2 e3 k2 e5⟩
  · cases hp

/-- A successful batch cancel: the signer owns the account, and exactly the account's resting orders recorded
under one of the (non-zero) ids are withdrawn. -/
theorem batch_effect {P : Params} {s s' : State conc} (h : Reach P s) (hq : s.seq ≤ W64) {env : Env}
    {accts : List AccMeta} {cids : List Nat} (hc : cancelByClientIds conc env s accts cids = .ok s') :
    ∃ m b k oo signer eq rest o ls, accts = m :: b :: k :: oo :: signer :: eq :: rest ∧
      signer.signer = true ∧ ooAt s.oos oo.key = some o ∧ o.owner = signer.key ∧
      Withdrawn s s' oo.key ls ∧
      ∀ sd x, (sd, x) ∈ ls ↔ x ∈ resting s sd ∧ x.owner = oo.key ∧
        ∃ c, recordedId o x.ownerSlot = some c ∧ c ≠ 0 ∧ c ∈ cids := by
  obtain ⟨vs, hv, hqi, hi⟩ := h.view hq
  have hg := h.good hq
  obtain ⟨t, ht, hrs⟩ := Sim.ok_right (Refines.sim_cancelByClientIds hg.rs env accts cids) hc
  unfold cancelByClientIds at ht
  obtain ⟨a, hp, ht⟩ := bind_ok ht
  simp only at ht
  obtain ⟨oo, ha, ht⟩ := bind_ok ht
  obtain ⟨⟨ob, oo1⟩, h1, ht⟩ := bind_ok ht
  simp only [pure, Except.pure, Except.ok.injEq] at ht
  obtain ⟨k1, k2, k3, k4, _⟩ := cancelArgs_inv ha
  have hst : setOo (absState s).oos a.oo.key oo = s.oos := setOo_same k2
  obtain ⟨ls, evs', e2, e3, e4, e5, e6⟩ := cancelMany_effect (c := s.toCore) (vs := vs) h1 rfl
    (absState_q hg hqi) (by rw [show setOo s.toCore.oos a.oo.key oo = s.oos from hst]; exact hi)
  have hls : ∀ sd x, (sd, x) ∈ ls ↔ x ∈ resting s sd ∧ x.owner = a.oo.key ∧
        ∃ c, recordedId oo x.ownerSlot = some c ∧ c ≠ 0 ∧ c ∈ cids := by
    intro sd x
    rw [e6]
    have hside : x ∈ sideOf sd ((absState s).ob lst (absState s).mkt).bids.items
        ((absState s).ob lst (absState s).mkt).asks.items ↔ x ∈ resting s sd := by
      cases sd <;> exact Iff.rfl
    have key : ∀ hx : x ∈ resting s sd, (x.key, sd) ∈ selectByClientIds oo (cids.filter (· != 0)) ↔
        x.owner = a.oo.key ∧ ∃ c, recordedId oo x.ownerSlot = some c ∧ c ≠ 0 ∧ c ∈ cids := by
      intro hx
      rw [select_resting hi k2 (sd := sd) (by cases sd <;> exact hx)]
      constructor
      · rintro ⟨e, c, g1, g2, g3⟩
        exact ⟨e, c, g1, g2, (List.mem_filter.1 g3).1⟩
      · rintro ⟨e, c, g1, g2, g3⟩
        exact ⟨e, c, g1, g2, List.mem_filter.2 ⟨g3, by simpa using g2⟩⟩
    constructor
    · rintro ⟨g1, g2⟩
      have hx := hside.1 g2
      exact ⟨hx, (key hx).1 g1⟩
    · rintro ⟨hx, g⟩
      exact ⟨(key hx).2 g, hside.2 hx⟩
  unfold parseCancel at hp
  split at hp
  · rename_i m b k oo0 signer eq rest
    cases hp
    exact ⟨m, b, k, oo0, signer, eq, rest, oo, ls, rfl, k1, k2, k4, Withdrawn.of hrs ht.symm e2 e3 k2 e5, hls⟩
  · cases hp

/-! ### Pruning -/

theorem mem_visits {n : Nat} : ∀ {L : List Leaf} {l : Leaf}, some l ∈ visits n L ↔ l ∈ L := by
  induction n with
  | zero => intro L l; simp [visits]
  | succ n ih =>
    intro L l
    unfold visits
    simp only
    split
    · rename_i hA
      rw [ih, List.mem_filter]
      constructor
      · exact fun h => h.1
      · intro h
        refine ⟨h, ?_⟩
        rw [List.filter_eq_nil_iff] at hA
        have := hA l h
        simpa using this
    · split
      · rename_i hB
        rw [ih, List.mem_filter]
        constructor
        · exact fun h => h.1
        · intro h
          refine ⟨h, ?_⟩
          rw [List.filter_eq_nil_iff] at hB
          have := hB l h
          simpa using this
      · rw [List.mem_cons, List.mem_append, ih, ih, List.mem_filter, List.mem_filter]
        constructor
        · rintro (h | h | h)
          · cases h
          · exact h.1
          · exact h.1
        · intro h
          right
          cases hc : critBit (127 - n) l.key with
          | true => exact .inl ⟨h, rfl⟩
          | false => exact .inr ⟨h, by simp⟩

theorem visits_length {n : Nat} : ∀ {L : List Leaf}, (visits n L).length ≤ 2 * L.length - 1 := by
  induction n with
  | zero => intro L; simp [visits]; omega
  | succ n ih =>
    intro L
    have hlen : (L.filter (fun l => !critBit (127 - n) l.key)).length +
        (L.filter (fun l => critBit (127 - n) l.key)).length = L.length := by
      have := List.length_eq_countP_add_countP (l := L) (fun l => critBit (127 - n) l.key)
      rw [List.countP_eq_length_filter, List.countP_eq_length_filter] at this
      simp only [decide_not, Bool.decide_eq_true] at this
      omega
    unfold visits
    simp only
    split
    · refine Nat.le_trans ih ?_
      omega
    · rename_i hA
      split
      · refine Nat.le_trans ih ?_
        omega
      · rename_i hB
        have h1 := ih (L := L.filter (fun l => !critBit (127 - n) l.key))
        have h2 := ih (L := L.filter (fun l => critBit (127 - n) l.key))
        have h3 := List.length_pos_iff.2 hA
        have h4 := List.length_pos_iff.2 hB
        simp only [List.length_cons, List.length_append]
        omega

theorem removeKeys_all {ks : List Nat} : ∀ {b b' : LBook} {ls : List Leaf}, removeKeys lst b ks = .ok (b', ls) →
    b.items.Pairwise (fun a b => a.key < b.key) → ∀ x ∈ b.items, x.key ∈ ks → x ∈ ls := by
  induction ks with
  | nil => intro b b' ls h _ x _ hk; cases hk
  | cons k ks ih =>
    intro b b' ls h hs x hx hk
    unfold removeKeys at h
    obtain ⟨⟨b1, l⟩, hr, h⟩ := bind_ok h
    simp only at h
    obtain ⟨⟨b2, ls1⟩, hr2, h⟩ := bind_ok h
    simp only [pure, Except.pure, Except.ok.injEq, Prod.mk.injEq] at h
    obtain ⟨rfl, rfl⟩ := h
    simp only [Except.ok.injEq, Prod.mk.injEq] at hr
    obtain ⟨rfl, hf⟩ := hr
    by_cases e : x.key = k
    · subst e
      rw [find_key hs hx] at hf
      subst hf
      simp
    · have hx2 : x ∈ b.items.filter (fun y => y.key != k) := List.mem_filter.2 ⟨hx, by simpa using e⟩
      have := ih hr2 (hs.sublist List.filter_sublist) x hx2
        (by rcases List.mem_cons.1 hk with h | h; exact absurd h e; exact h)
      simp [this]

theorem findBy_mem {b : LBook} {limit : Nat} {p : Leaf → Bool} {k : Nat} (h : k ∈ (lst.findBy b limit p).1) :
    ∃ x ∈ b.items, x.key = k ∧ p x = true := by
  simp only [List.mem_map, List.mem_filter, List.mem_filterMap] at h
  obtain ⟨x, ⟨⟨y, h1, h2⟩, h3⟩, h4⟩ := h
  simp only [id] at h2
  subst h2
  exact ⟨x, mem_visits.1 (List.mem_of_mem_take h1), h4, h3⟩

theorem findBy_all {b : LBook} {limit : Nat} {p : Leaf → Bool} (hl : 2 * b.items.length ≤ limit)
    {x : Leaf} (hx : x ∈ b.items) (hp : p x = true) : x.key ∈ (lst.findBy b limit p).1 := by
  have := visits_length (n := 128) (L := b.items)
  simp only [List.mem_map, List.mem_filter, List.mem_filterMap]
  refine ⟨x, ⟨⟨some x, ?_, rfl⟩, hp⟩, rfl⟩
  rw [List.take_of_length_le (by omega)]
  exact mem_visits.2 hx

theorem without_map_same {sd : Side} {ls L : List Leaf} (h : L.Pairwise (fun a b => a.key < b.key))
    (hl : ∀ l ∈ ls, l ∈ L) : without (ls.map fun l => (sd, l)) sd L = dropAll ls L := by
  unfold without dropAll
  apply List.filter_congr
  intro x hx
  congr 1
  rw [List.contains_eq_mem, List.contains_eq_mem]
  have : (sd, x) ∈ ls.map (fun l => (sd, l)) ↔ x.key ∈ ls.map (·.key) := by
    rw [List.mem_map, List.mem_map]
    constructor
    · rintro ⟨y, h1, h2⟩
      simp only [Prod.mk.injEq, true_and] at h2
      exact ⟨y, h1, by rw [h2]⟩
    · rintro ⟨y, h1, h2⟩
      exact ⟨y, h1, by rw [key_unique h hx (hl y h1) h2.symm]⟩
  simp [this]

theorem without_map_other {sd sd' : Side} (h : sd' ≠ sd) (ls L : List Leaf) :
    without (ls.map fun l => (sd', l)) sd L = L := by
  unfold without
  rw [List.filter_eq_self]
  intro x _
  simp [h]

/-- C39. A successful prune was signed by the market's prune authority and named the account's owner. It
withdraws only orders of the named account, crediting that account with exactly their worth and queueing one
out event each; with a large enough limit it withdraws all of them. -/
theorem prune_effect {P : Params} {s s' : State conc} (h : Reach P s) (hq : s.seq ≤ W64) {env : Env}
    {accts : List AccMeta} {limit : Nat} (hc : prune conc env s accts limit = .ok s') :
    ∃ m b k auth oo owner eq o ls, accts = [m, b, k, auth, oo, owner, eq] ∧
      auth.signer = true ∧ s.mkt.flags.testBit 9 = true ∧ s.mkt.pruneAuthority = auth.key ∧
      ooAt s.oos oo.key = some o ∧ o.owner = owner.key ∧ Withdrawn s s' oo.key ls ∧
      (2 * ((resting s .bid).length + (resting s .ask).length) ≤ limit →
        ∀ sd x, (sd, x) ∈ ls ↔ x ∈ resting s sd ∧ x.owner = oo.key) := by
  obtain ⟨vs, hv, hqi, hi⟩ := h.view hq
  have hg := h.good hq
  obtain ⟨t, ht, hrs⟩ := Sim.ok_right (Refines.sim_prune hg.rs env accts limit) hc
  unfold prune at ht
  split at ht
  · rename_i m b k auth oo owner eq
    obtain ⟨_, hsig, ht⟩ := bind_ok ht
    obtain ⟨_, _, ht⟩ := bind_ok ht
    obtain ⟨_, hau, ht⟩ := bind_ok ht
    obtain ⟨o, hl, ht⟩ := bind_ok ht
    obtain ⟨_, _, ht⟩ := bind_ok ht
    obtain ⟨_, _, ht⟩ := bind_ok ht
    obtain ⟨_, _, ht⟩ := bind_ok ht
    obtain ⟨⟨ob, bl, al⟩, hr, ht⟩ := bind_ok ht
    simp only at ht
    obtain ⟨⟨ob1, oo1⟩, h1, ht⟩ := bind_ok ht
    simp only at ht
    obtain ⟨⟨ob2, oo2⟩, h2, hfin⟩ := bind_ok ht
    simp only [pure, Except.pure, Except.ok.injEq] at hfin
    have ho : ooAt s.oos oo.key = some o ∧ o.owner = owner.key := by
      rcases loadOrders_inv hl with ⟨g1, _, g3⟩ | ⟨_, _, g5, _⟩
      · refine ⟨g1, ?_⟩
        rcases g3 with g3 | g3
        · cases g3
        · injection g3 with g3; exact g3.symm
      · cases g5
    have hpa : s.mkt.flags.testBit 9 = true ∧ s.mkt.pruneAuthority = auth.key := by
      have := checkAssert_ok.1 hau
      have hp : (absState s).mkt.pruneAuth = some auth.key := by simpa using this
      replace hp : s.mkt.pruneAuth = some auth.key := hp
      unfold Market.pruneAuth at hp
      split at hp
      · rename_i hf
        refine ⟨?_, by injection hp⟩
        unfold Market.permissioned at hf
        rw [← hasFlag_bit]
        exact hf
      · cases hp
    unfold removeAll at hr
    simp only at hr
    obtain ⟨⟨b', bl'⟩, hb, hr⟩ := bind_ok hr
    obtain ⟨⟨a', al'⟩, ha, hr⟩ := bind_ok hr
    cases hr
    obtain ⟨r1, r2, r3⟩ := removeKeys_lst hb
    obtain ⟨q1, q2, q3⟩ := removeKeys_lst ha
    have hst : setOo s.oos oo.key o = s.oos := setOo_same ho.1
    have hL := absState_q hg hqi
    obtain ⟨k1, k2, k3, B1, A1, evs1, k4, k5, k6⟩ := cancelLeaves_effect (c := s.toCore) (vs := vs)
      (B := s.bids.contents) (A := s.asks.contents) h1 rfl hL
      (by rw [show setOo s.toCore.oos oo.key o = s.oos from hst]; exact hi) (fun l hl => (r2 l hl).1) r3
    have hB1 : A1 = s.asks.contents := by rw [k6.asks, without_map_other (by decide)]
    obtain ⟨m1, m2, m3, B2, A2, evs2, m4, m5, m6⟩ := cancelLeaves_effect (c := s.toCore) (vs := vs) h2 k3 k4 k5
      (fun l hl => by rw [show sideOf .ask B1 A1 = A1 from rfl, hB1]; exact (q2 l hl).1) q3
    have hw := k6.trans m6
    have eB : ob2.bids.items = B2 := by
      rw [m1, k1]
      show b'.items = B2
      rw [r1, m6.bids, without_map_other (by decide), k6.bids,
        without_map_same hi.shape.book.bidSort (fun l hl => (r2 l hl).1)]
      rfl
    have eA : ob2.asks.items = A2 := by
      rw [m2, k2]
      show a'.items = A2
      rw [q1, m6.asks, hB1, without_map_same hi.shape.book.askSort (fun l hl => (q2 l hl).1)]
      rfl
    rw [← eB, ← eA] at hw
    refine ⟨m, b, k, auth, oo, owner, eq, o, _, rfl, checkAssert_ok.1 hsig, hpa.1, hpa.2, ho.1, ho.2,
      Withdrawn.of hrs hfin.symm m3 m4 ho.1 hw, ?_⟩
    intro hlim sd x
    constructor
    · intro hm
      have := hw.theirs sd x hm
      cases sd <;> exact this
    · rintro ⟨hx, hxo⟩
      have hva := visits_length (n := 128) (L := s.asks.contents)
      cases sd with
      | bid =>
        refine List.mem_append_left _ (List.mem_map.2 ⟨x, ?_, rfl⟩)
        refine removeKeys_all hb hi.shape.book.bidSort x hx (findBy_all ?_ hx (by simpa using hxo))
        show 2 * s.bids.contents.length ≤ limit - (visits 128 s.asks.contents).length
        have : 2 * (s.bids.contents.length + s.asks.contents.length) ≤ limit := hlim
        omega
      | ask =>
        refine List.mem_append_right _ (List.mem_map.2 ⟨x, ?_, rfl⟩)
        refine removeKeys_all ha hi.shape.book.askSort x hx (findBy_all ?_ hx (by simpa using hxo))
        show 2 * s.asks.contents.length ≤ limit
        have : 2 * (s.bids.contents.length + s.asks.contents.length) ≤ limit := hlim
        omega
  · cases ht

-- account 42 has two bids and an ask, account 41 an ask; only the former are pruned
example : Reach Demo.P Demo.p6 ∧ prune conc Demo.env Demo.p6 (Demo.pruneAccts 42 12) 100 = .ok Demo.p7 ∧
    (resting Demo.p6 .bid).map (·.owner) = [42, 42] ∧ (resting Demo.p6 .ask).map (·.owner) = [41, 42] ∧
    (resting Demo.p7 .bid).map (·.owner) = [] ∧ (resting Demo.p7 .ask).map (·.owner) = [41] :=
  ⟨Demo.k6, Demo.f7, by decide +kernel, by decide +kernel, by decide +kernel, by decide +kernel⟩

end Serum.Props
