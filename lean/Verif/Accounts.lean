import Verif.Processor
import Verif.MatchSums

/-
The map of open-orders accounts, its slots and sums, and what loading an account yields.
-/

namespace Serum

/-! ### The map of accounts -/

theorem ooAt_cons (b : Nat) (p : OpenOrders) (l : List (Nat × OpenOrders)) (a : Nat) :
    ooAt ((b, p) :: l) a = if a = b then some p else ooAt l a := by
  unfold ooAt
  rw [List.lookup_cons]
  by_cases h : a = b
  · subst h; simp
  · have : (a == b) = false := by simpa using h
    simp [this, h]

theorem ooAt_setOo (l : List (Nat × OpenOrders)) (a : Nat) (o : OpenOrders) (b : Nat) :
    ooAt (setOo l a o) b = if b = a then some o else ooAt l b := by
  induction l with
  | nil => simp only [setOo, ooAt_cons]
  | cons x l ih =>
    obtain ⟨c, p⟩ := x
    unfold setOo
    by_cases h : a = c
    · subst h
      simp only [beq_self_eq_true, if_true, ooAt_cons]
      split <;> rfl
    · have : (a == c) = false := by simpa using h
      simp only [this, Bool.false_eq_true, if_false, ooAt_cons, ih]
      by_cases hb : b = c
      · subst hb
        have : b ≠ a := fun e => h e.symm
        simp [this]
      · simp [hb]

theorem setOo_setOo (l : List (Nat × OpenOrders)) (a : Nat) (o o' : OpenOrders) :
    setOo (setOo l a o) a o' = setOo l a o' := by
  induction l with
  | nil => simp [setOo]
  | cons x l ih =>
    obtain ⟨c, p⟩ := x
    by_cases h : a = c
    · subst h; simp [setOo]
    · have : (a == c) = false := by simpa using h
      simp only [setOo, this, Bool.false_eq_true, if_false, ih]

theorem setOo_same {l : List (Nat × OpenOrders)} {a : Nat} {o : OpenOrders} (h : ooAt l a = some o) :
    setOo l a o = l := by
  induction l with
  | nil => cases h
  | cons x l ih =>
    obtain ⟨c, p⟩ := x
    rw [ooAt_cons] at h
    by_cases hc : a = c
    · subst hc
      simp only [if_true, Option.some.injEq] at h
      subst h
      simp [setOo]
    · rw [if_neg hc] at h
      have : (a == c) = false := by simpa using hc
      simp only [setOo, this, Bool.false_eq_true, if_false, ih h]

theorem ooAt_none_iff {l : List (Nat × OpenOrders)} {a : Nat} : ooAt l a = none ↔ a ∉ l.map (·.1) := by
  induction l with
  | nil => simp [ooAt]
  | cons x l ih =>
    obtain ⟨c, p⟩ := x
    rw [ooAt_cons]
    by_cases hc : a = c
    · simp [hc]
    · simp [hc, ih]

theorem ooAt_mem {l : List (Nat × OpenOrders)} {a : Nat} {o : OpenOrders} (h : ooAt l a = some o) :
    (a, o) ∈ l := by
  induction l with
  | nil => cases h
  | cons x l ih =>
    obtain ⟨c, p⟩ := x
    rw [ooAt_cons] at h
    by_cases hc : a = c
    · subst hc
      simp only [if_true, Option.some.injEq] at h
      subst h
      simp
    · rw [if_neg hc] at h
      exact List.mem_cons_of_mem _ (ih h)

theorem ooAt_of_mem {l : List (Nat × OpenOrders)} {a : Nat} {o : OpenOrders}
    (hn : (l.map (·.1)).Nodup) (h : (a, o) ∈ l) : ooAt l a = some o := by
  induction l with
  | nil => cases h
  | cons x l ih =>
    obtain ⟨c, p⟩ := x
    rw [List.map_cons, List.nodup_cons] at hn
    rw [ooAt_cons]
    rw [List.mem_cons] at h
    rcases h with h | h
    · cases h; simp
    · have : a ≠ c := by
        rintro rfl
        exact hn.1 (List.mem_map_of_mem (f := (·.1)) h)
      rw [if_neg this]
      exact ih hn.2 h

theorem setOo_keys (l : List (Nat × OpenOrders)) (a : Nat) (o : OpenOrders) :
    (setOo l a o).map (·.1) = if a ∈ l.map (·.1) then l.map (·.1) else l.map (·.1) ++ [a] := by
  induction l with
  | nil => simp [setOo]
  | cons x l ih =>
    obtain ⟨c, p⟩ := x
    by_cases h : a = c
    · subst h; simp [setOo]
    · have : (a == c) = false := by simpa using h
      simp only [setOo, this, Bool.false_eq_true, if_false, List.map_cons, ih, List.mem_cons, h, false_or]
      split <;> rfl

theorem setOo_nodup {l : List (Nat × OpenOrders)} (hn : (l.map (·.1)).Nodup) (a : Nat)
    (o : OpenOrders) : ((setOo l a o).map (·.1)).Nodup := by
  rw [setOo_keys]
  split
  · exact hn
  · rename_i h
    rw [List.nodup_append]
    refine ⟨hn, by simp, ?_⟩
    intro x hx y hy
    rw [List.mem_singleton] at hy
    subst hy
    rintro rfl
    exact h hx

theorem mem_setOo {l : List (Nat × OpenOrders)} {a : Nat} {o : OpenOrders} {x : Nat × OpenOrders}
    (hn : (l.map (·.1)).Nodup) (h : x ∈ setOo l a o) : x = (a, o) ∨ (x ∈ l ∧ x.1 ≠ a) := by
  obtain ⟨b, p⟩ := x
  have := ooAt_of_mem (setOo_nodup hn a o) h
  rw [ooAt_setOo] at this
  split at this
  · rename_i hb
    subst hb
    cases this
    exact .inl rfl
  · rename_i hb
    exact .inr ⟨ooAt_mem this, hb⟩

/-- A field summed over all accounts. -/
def accSum (g : OpenOrders → Nat) (l : List (Nat × OpenOrders)) : Nat := sumBy (fun x => g x.2) l

theorem accSum_setOo {l : List (Nat × OpenOrders)} {a : Nat} {o o' : OpenOrders}
    (h : ooAt l a = some o') (g : OpenOrders → Nat) :
    accSum g (setOo l a o) + g o' = accSum g l + g o := by
  induction l with
  | nil => cases h
  | cons x l ih =>
    obtain ⟨c, p⟩ := x
    rw [ooAt_cons] at h
    by_cases hc : a = c
    · subst hc
      simp only [if_true, Option.some.injEq] at h
      subst h
      simp [setOo, accSum]; omega
    · rw [if_neg hc] at h
      have e : (a == c) = false := by simpa using hc
      have := ih h
      unfold accSum at this ⊢
      simp only [setOo, e, Bool.false_eq_true, if_false, sumBy_cons]
      omega

theorem accSum_setOo_new {l : List (Nat × OpenOrders)} {a : Nat} {o : OpenOrders}
    (h : ooAt l a = none) (g : OpenOrders → Nat) : accSum g (setOo l a o) = accSum g l + g o := by
  induction l with
  | nil => simp [setOo, accSum]
  | cons x l ih =>
    obtain ⟨c, p⟩ := x
    rw [ooAt_cons] at h
    by_cases hc : a = c
    · subst hc; simp at h
    · rw [if_neg hc] at h
      have e : (a == c) = false := by simpa using hc
      have := ih h
      unfold accSum at this ⊢
      simp only [setOo, e, Bool.false_eq_true, if_false, sumBy_cons]
      omega

theorem accSum_ge {l : List (Nat × OpenOrders)} {a : Nat} {o : OpenOrders}
    (h : ooAt l a = some o) (g : OpenOrders → Nat) : g o ≤ accSum g l := by
  have := accSum_setOo (o := o) h g
  rw [setOo_same h] at this
  have h1 : ∀ l : List (Nat × OpenOrders), (a, o) ∈ l → g o ≤ accSum g l := by
    intro l
    induction l with
    | nil => intro h; cases h
    | cons x l ih =>
      intro hm
      unfold accSum at ih ⊢
      rw [sumBy_cons]
      rw [List.mem_cons] at hm
      rcases hm with rfl | hm
      · simp
      · have := ih hm; omega
  exact h1 l (ooAt_mem h)

/-! ### Slots -/

/-- What slot `i` of an account holds. -/
def OpenOrders.slot (o : OpenOrders) (i : Nat) : Option (Side × Nat) :=
  if i < 128 then
    match o.slotSide i, o.orders[i]? with
    | some sd, some id => some (sd, id)
    | _, _ => none
  else none

/-- Slots of all accounts. -/
def slotsOf (l : List (Nat × OpenOrders)) : SlotMap := fun a i =>
  match ooAt l a with
  | some o => o.slot i
  | none => none

theorem slotsOf_setOo (l : List (Nat × OpenOrders)) (a : Nat) (o : OpenOrders) (b i : Nat) :
    slotsOf (setOo l a o) b i = if b = a then o.slot i else slotsOf l b i := by
  unfold slotsOf
  rw [ooAt_setOo]
  by_cases h : b = a <;> simp [h]

theorem slot_congr {o o' : OpenOrders} (h1 : o'.freeBits = o.freeBits) (h2 : o'.bidBits = o.bidBits)
    (h3 : o'.orders = o.orders) (i : Nat) : o'.slot i = o.slot i := by
  unfold OpenOrders.slot OpenOrders.slotSide
  rw [h1, h2, h3]

/-- Shape of a stored account: array lengths, machine words, and what closing requires. -/
structure OoOk (o : OpenOrders) : Prop where
  orders : o.orders.length = 128
  clientIds : o.clientIds.length = 128
  coinFree : o.coinFree < W64
  coinTotal : o.coinTotal < W64
  pcFree : o.pcFree < W64
  pcTotal : o.pcTotal < W64
  rebates : o.rebates < W64
  closed : o.closed = true → o.freeBits = BitVec.allOnes 128 ∧ o.coinTotal = 0 ∧ o.pcTotal = 0

theorem init_ok (owner : Nat) : OoOk (OpenOrders.init owner) := by
  constructor <;> first | (simp [OpenOrders.init]; done) | (show 0 < W64; decide)

theorem init_slot (owner i : Nat) : (OpenOrders.init owner).slot i = none := by
  unfold OpenOrders.slot
  split
  · rename_i h
    have : (OpenOrders.init owner).slotSide i = none :=
      (freeBits_allOnes_iff (OpenOrders.init owner)).1 rfl i h
    rw [this]
  · rfl

/-- A slot in use is recorded. -/
theorem slot_eq_some {o : OpenOrders} {i : Nat} {sd : Side} {id : Nat} :
    o.slot i = some (sd, id) ↔ i < 128 ∧ o.slotSide i = some sd ∧ o.orders[i]? = some id := by
  unfold OpenOrders.slot
  by_cases h : i < 128
  · simp only [h, if_true, true_and]
    cases o.slotSide i with
    | none => simp
    | some s =>
      cases o.orders[i]? with
      | none => simp
      | some x => simp
  · simp [h]

theorem slot_eq_none {o : OpenOrders} (ho : o.orders.length = 128) {i : Nat} (hi : i < 128) :
    o.slot i = none ↔ o.slotSide i = none := by
  unfold OpenOrders.slot
  simp only [hi, if_true]
  have : o.orders[i]? = some o.orders[i] := List.getElem?_eq_getElem (by omega)
  rw [this]
  cases o.slotSide i <;> simp

theorem addOrder_inv {o o' : OpenOrders} {id slot : Nat} {side : Side} (ho : o.orders.length = 128)
    (h : o.addOrder id side = .ok (slot, o')) :
    ∃ f b, o' = { o with freeBits := f, bidBits := b, orders := o.orders.set slot id } ∧ slot < 128 ∧
      o.slot slot = none ∧ ∀ j, o'.slot j = if j = slot then some (side, id) else o.slot j := by
  by_cases hf : o.freeBits = 0
  · rw [addOrder_full hf] at h; cases h
  · obtain ⟨s, f, b, h1, h2, h3, h4⟩ := addOrder_spec hf id side
    rw [h1] at h
    simp only [Except.ok.injEq, Prod.mk.injEq] at h
    obtain ⟨rfl, rfl⟩ := h
    refine ⟨f, b, rfl, h2, (slot_eq_none ho h2).2 h3, ?_⟩
    intro j
    by_cases hj : j < 128
    · unfold OpenOrders.slot
      simp only [hj, if_true, h4 j hj]
      by_cases hjs : j = s
      · subst hjs
        simp [ho, h2]
      · have : s ≠ j := fun e => hjs e.symm
        simp only [hjs, if_false, List.getElem?_set_ne this]
    · have : j ≠ s := by omega
      simp [OpenOrders.slot, hj, this]

theorem removeOrder_inv {o o' : OpenOrders} {slot : Nat} (h : o.removeOrder slot = .ok o') :
    ∃ f b, o' = { o with
        freeBits := f
        bidBits := b
        orders := o.orders.set slot 0
        clientIds := o.clientIds.set slot 0 } ∧ slot < 128 ∧
      ∀ j, o'.slot j = if j = slot then none else o.slot j := by
  by_cases hs : slot < 128 ∧ o.slotSide slot ≠ none
  · obtain ⟨f, b, h1, h2⟩ := removeOrder_spec hs.1 hs.2
    rw [h1] at h
    simp only [Except.ok.injEq] at h
    refine ⟨f, b, h.symm, hs.1, ?_⟩
    subst h
    intro j
    by_cases hj : j < 128
    · unfold OpenOrders.slot
      simp only [hj, if_true, h2 j hj]
      by_cases hjs : j = slot
      · simp [hjs]
      · have : slot ≠ j := fun e => hjs e.symm
        simp only [hjs, if_false, List.getElem?_set_ne this]
    · simp [OpenOrders.slot, hj]
  · rw [removeOrder_fail (by
      by_cases h1 : slot < 128
      · right
        cases h2 : o.slotSide slot with
        | none => rfl
        | some s => exact absurd ⟨h1, by rw [h2]; simp⟩ hs
      · left; omega)] at h
    cases h

/-! ### Loading -/

/-- A loaded account is stored and open, or freshly initialised. -/
theorem loadOrders_inv {c : Core} {env : Env} {a : Nat} {owner : Option Nat} {rent : Bool}
    {auth : Option Nat} {oo : OpenOrders} (h : loadOrders c env a owner rent auth = .ok oo) :
    (ooAt c.oos a = some oo ∧ oo.closed = false ∧ (owner = none ∨ owner = some oo.owner)) ∨
    (ooAt c.oos a = none ∧ a ≠ 0 ∧ rent = true ∧ auth = c.mkt.ooAuth ∧ env.acct a = .zeroed true ∧
      ∃ w, owner = some w ∧ oo = OpenOrders.init w) := by
  unfold loadOrders at h
  cases hl : ooAt c.oos a with
  | some p =>
    rw [hl] at h
    simp only at h
    by_cases hc : p.closed = true
    · rw [if_pos hc] at h; cases h
    · rw [if_neg hc] at h
      split at h
      · cases h
      · rename_i ho
        cases h
        left
        refine ⟨rfl, by simpa using hc, ?_⟩
        cases owner with
        | none => exact .inl rfl
        | some w =>
          right
          apply Classical.byContradiction
          intro hw
          exact ho ⟨by simp, hw⟩
  | none =>
    rw [hl] at h
    simp only at h
    by_cases h0 : a = 0
    · rw [if_pos h0] at h; cases h
    · rw [if_neg h0] at h
      right
      cases he : env.acct a with
      | other e => rw [he] at h; cases h
      | zeroed ex =>
        rw [he] at h
        simp only [initOrders] at h
        split at h
        · cases h
        · rename_i ha
          split at h
          · cases h
          · rename_i hr
            cases owner with
            | none => cases h
            | some w =>
              simp only at h
              split at h
              · cases h
              · rename_i hx
                cases h
                refine ⟨rfl, h0, by simpa using hr, by simpa using ha, ?_, w, rfl, rfl⟩
                cases ex
                · simp at hx
                · rfl

/-- Without the rent sysvar only stored accounts load. -/
theorem loadOrders_stored {c : Core} {env : Env} {a : Nat} {owner : Option Nat}
    {auth : Option Nat} {oo : OpenOrders} (h : loadOrders c env a owner false auth = .ok oo) :
    ooAt c.oos a = some oo ∧ oo.closed = false ∧ (owner = none ∨ owner = some oo.owner) := by
  rcases loadOrders_inv h with h | ⟨_, _, h, _⟩
  · exact h
  · cases h

end Serum
