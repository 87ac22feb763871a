import Verif.InvAll

/-
Client ids: the id recorded in an account's slot is the one on the resting order and in its events.
-/

namespace Serum

/-- Client id carried by an event. -/
def EventView.cid : EventView → Nat
  | .fill _ _ _ _ _ _ _ _ _ c => c
  | .out _ _ _ _ _ _ _ c => c

/-- All resting orders and events carry a tag related to their slot. -/
structure Tags (R : Nat → Nat → Nat → Prop) (B A : List Leaf) (evs : List EventView) : Prop where
  bids : ∀ l ∈ B, R l.owner l.ownerSlot l.clientId
  asks : ∀ l ∈ A, R l.owner l.ownerSlot l.clientId
  evs : ∀ v ∈ evs, R v.owner v.slot v.cid

theorem insKey_mem {l x : Leaf} : ∀ {xs : List Leaf}, x ∈ insKey l xs → x = l ∨ x ∈ xs := by
  intro xs
  induction xs with
  | nil => intro h; left; simpa [insKey] using h
  | cons y ys ih =>
    intro h
    unfold insKey at h
    split at h
    · rcases List.mem_cons.1 h with h | h
      · exact .inl h
      · exact .inr h
    · split at h
      · rcases List.mem_cons.1 h with h | h
        · exact .inl h
        · exact .inr (List.mem_cons_of_mem _ h)
      · rcases List.mem_cons.1 h with h | h
        · exact .inr (by rw [h]; simp)
        · rcases ih h with h | h
          · exact .inl h
          · exact .inr (List.mem_cons_of_mem _ h)

theorem tag_shrink {R : Nat → Nat → Nat → Prop} {best l : Leaf} {n : Nat}
    (h : R best.owner best.ownerSlot best.clientId) (hl : l ∈ shrink best n) :
    R l.owner l.ownerSlot l.clientId := by
  rw [(shrink_owner hl).1]
  exact h

theorem round_tags {o : OrderParams} {po : Bool} {ob ob' : Ob lst} {coin pc : Nat}
    {r : Option Remaining} {ts : List Touch} {f : Option Posting} {R : Nat → Nat → Nat → Prop}
    (h : Round o po ob coin pc ob' r ts f) {evs : List EventView}
    (hq : ob.q.items = evs.map Event.new)
    (hz : o.owner = 0 → ∀ l ∈ opposite o.side ob.bids.items ob.asks.items, l.owner ≠ 0)
    (hR : o.owner ≠ 0 → R o.owner o.ownerSlot o.clientId)
    (ht : Tags R ob.bids.items ob.asks.items evs) :
    ∃ evs', ob'.q.items = (evs ++ evs').map Event.new ∧ Tags R ob'.bids.items ob'.asks.items (evs ++ evs') := by
  obtain ⟨tb, ta, te⟩ := ht
  have app : ∀ vs : List EventView, (∀ v ∈ vs, R v.owner v.slot v.cid) →
      ∀ v ∈ evs ++ vs, R v.owner v.slot v.cid := by
    intro vs hvs v hv
    rcases List.mem_append.1 hv with hv | hv
    · exact te v hv
    · exact hvs v hv
  unfold Round at h
  cases hside : o.side with
  | ask =>
    rw [hside] at h
    simp only at h
    cases h with
    | post hlim hpa hns hcap =>
      refine ⟨[], by rw [List.append_nil]; exact hq, tb, ?_, app [] (by simp)⟩
      intro l hl
      rcases insKey_mem hl with rfl | hl
      · exact hR hns
      · exact ta l hl
    | evict A l hlim hpa hns hcap hA =>
      refine ⟨_, push_items _ _ _ hq, tb, ?_, app _ ?_⟩
      · intro x hx
        rcases insKey_mem hx with rfl | hx
        · exact hR hns
        · exact ta x (by rw [hA]; simp [hx])
      · intro v hv
        rw [List.mem_singleton] at hv
        subst hv
        exact ta l (by rw [hA]; simp)
    | release hlim hwhy hns hb' =>
      refine ⟨_, push_items _ _ _ hq, tb, ta, app _ ?_⟩
      intro v hv
      rw [List.mem_singleton] at hv
      subst hv
      exact hR hns
    | stop hlim h0 => exact ⟨[], by rw [List.append_nil]; exact hq, tb, ta, app [] (by simp)⟩
    | selfTrade B best provide take hB hpr hpo hown hst hb' =>
      have hbest := tb best (by rw [hB]; simp)
      have hns : o.owner ≠ 0 := by
        intro h0
        have h2 := hz h0 best
        rw [hside, hB] at h2
        exact h2 (by simp [opposite]) (by rw [← hown]; exact h0)
      refine ⟨_, push_items _ _ _ hq, ?_, ta, app _ ?_⟩
      · intro l hl
        rcases List.mem_append.1 hl with hl | hl
        · exact tb l (by rw [hB]; simp [hl])
        · exact tag_shrink hbest hl
      · intro v hv
        simp only [List.mem_cons, List.not_mem_nil, or_false] at hv
        rcases hv with rfl | rfl
        · exact hbest
        · exact hR hns
    | fill B best tq fee hB hpr hpo hown htq hfee hb1 hb2 =>
      have hbest := tb best (by rw [hB]; simp)
      refine ⟨_, push_items _ _ _ hq, ?_, ta, app _ ?_⟩
      · intro l hl
        rcases List.mem_append.1 hl with hl | hl
        · exact tb l (by rw [hB]; simp [hl])
        · exact tag_shrink hbest hl
      · intro v hv
        unfold askFillEvs at hv
        simp only [List.mem_append] at hv
        rcases hv with ((hv | hv) | hv) | hv
        · rw [List.mem_singleton] at hv
          subst hv; exact hbest
        · split at hv
          · rw [List.mem_singleton] at hv
            subst hv; exact hbest
          · cases hv
        · split at hv
          · cases hv
          · rw [List.mem_singleton] at hv
            subst hv
            exact hR (by assumption)
        · split at hv
          · cases hv
          · split at hv
            · rw [List.mem_singleton] at hv
              subst hv
              exact hR (by assumption)
            · cases hv
  | bid =>
    rw [hside] at h
    simp only at h
    cases h with
    | post qty hlim hpa hns hqty hq0 hle hb' hcap =>
      refine ⟨_, push_items _ _ _ hq, ?_, ta, app _ ?_⟩
      · intro l hl
        rcases insKey_mem hl with rfl | hl
        · exact hR hns
        · exact tb l hl
      · intro v hv
        rw [List.mem_singleton] at hv
        subst hv
        exact hR hns
    | evict qty B l hlim hpa hns hqty hq0 hle hb' hcap hB =>
      refine ⟨_, push_items _ _ _ hq, ?_, ta, app _ ?_⟩
      · intro x hx
        rcases insKey_mem hx with rfl | hx
        · exact hR hns
        · exact tb x (by rw [hB]; simp [hx])
      · intro v hv
        simp only [List.mem_cons, List.not_mem_nil, or_false] at hv
        rcases hv with rfl | rfl
        · exact hR hns
        · exact tb l (by rw [hB]; simp)
    | release hlim hwhy hns hb' =>
      refine ⟨_, push_items _ _ _ hq, tb, ta, app _ ?_⟩
      intro v hv
      rw [List.mem_singleton] at hv
      subst hv
      exact hR hns
    | stop hlim h0 => exact ⟨[], by rw [List.append_nil]; exact hq, tb, ta, app [] (by simp)⟩
    | selfTrade A best provide take unlocked still hA hpr hpo hown htq hst hle0 hgo hb' =>
      have hbest := ta best (by rw [hA]; simp)
      have hns : o.owner ≠ 0 := by
        intro h0
        have h2 := hz h0 best
        rw [hside, hA] at h2
        exact h2 (by simp [opposite]) (by rw [← hown]; exact h0)
      refine ⟨_, push_items _ _ _ hq, tb, ?_, app _ ?_⟩
      · intro l hl
        rcases List.mem_append.1 hl with hl | hl
        · exact tag_shrink hbest hl
        · exact ta l (by rw [hA]; simp [hl])
      · intro v hv
        simp only [List.mem_cons, List.not_mem_nil, or_false] at hv
        rcases hv with rfl | rfl
        · exact hbest
        · exact hR hns
    | fill A best tq pc' fee left hA hpr hpo hown htq htpos hpc hfee hleft hb1 hb2 =>
      have hbest := ta best (by rw [hA]; simp)
      refine ⟨_, push_items _ _ _ hq, tb, ?_, app _ ?_⟩
      · intro l hl
        rcases List.mem_append.1 hl with hl | hl
        · exact tag_shrink hbest hl
        · exact ta l (by rw [hA]; simp [hl])
      · intro v hv
        unfold bidFillEvs at hv
        simp only [List.mem_append] at hv
        rcases hv with ((hv | hv) | hv) | hv
        · rw [List.mem_singleton] at hv
          subst hv; exact hbest
        · split at hv
          · rw [List.mem_singleton] at hv
            subst hv; exact hbest
          · cases hv
        · split at hv
          · cases hv
          · rw [List.mem_singleton] at hv
            subst hv
            exact hR (by assumption)
        · split at hv
          · cases hv
          · split at hv
            · cases hv
            · rw [List.mem_singleton] at hv
              subst hv
              exact hR (by assumption)

theorem path_tags {o : OrderParams} (ho : OrderOk o) {limit : Nat} {ob ob' : Ob lst} {coin pc : Nat}
    {ts : List Touch} {f : Option Posting} {R : Nat → Nat → Nat → Prop} (hi : RoundIn o ob coin pc)
    (h : Path o limit ob coin pc ob' ts f) {evs : List EventView}
    (hq : ob.q.items = evs.map Event.new)
    (hz : o.owner = 0 → ∀ l ∈ opposite o.side ob.bids.items ob.asks.items, l.owner ≠ 0)
    (hR : o.owner ≠ 0 → R o.owner o.ownerSlot o.clientId)
    (ht : Tags R ob.bids.items ob.asks.items evs) :
    ∃ evs', ob'.q.items = (evs ++ evs').map Event.new ∧ Tags R ob'.bids.items ob'.asks.items (evs ++ evs') := by
  induction h generalizing evs with
  | last h => exact round_tags h hq hz hR ht
  | stop h => exact round_tags h hq hz hR ht
  | more h _ ih =>
    obtain ⟨e1, h1, h2⟩ := round_tags h hq hz hR ht
    have ht := (round_touches hi (fun h => h) h).1
    obtain ⟨e2, h3, h4⟩ := ih ((round_pres ho hi h).2.2.2 _ rfl) h1 (fun h0 => hz_next ht (hz h0)) h2
    exact ⟨e1 ++ e2, by rw [← List.append_assoc]; exact h3, by rw [← List.append_assoc]; exact h4⟩

end Serum
