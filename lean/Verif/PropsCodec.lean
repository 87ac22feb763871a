import Verif.Codec

/-!
Properties C13–C14: queue item codecs.
-/

namespace Serum.Props

theorem except_bind_ok {ε α β : Type} {x : Except ε α} {f : α → Except ε β} {b : β} :
    (x >>= f) = .ok b ↔ ∃ a, x = .ok a ∧ f a = .ok b := by
  cases x <;> simp [bind, Except.bind]

theorem ofU8_eq {n : Nat} {t : FeeTier} (h : FeeTier.ofU8 n = some t) : t.toU8 = n := by
  unfold FeeTier.ofU8 at h
  split at h <;> first | (cases h; rfl) | cases h

theorem stb_ofCode_eq {n : Nat} {t : SelfTradeBehavior} (h : SelfTradeBehavior.ofCode n = some t) :
    t.toCode = n := by
  unfold SelfTradeBehavior.ofCode at h
  split at h <;> first | (cases h; rfl) | cases h

set_option synthInstance.maxSize 1000 in
set_option synthInstance.maxHeartbeats 200000 in
/-- The complete table of event flag bytes. -/
theorem event_flag_table : ∀ f < 256,
    (within f 0x1f = true → hasFlag f 0x1 = true → within f (0x1 ||| 0x4 ||| 0x8) = true →
      f = ((if hasFlag f 0x4 then 0x4 else 0) ||| 0x1) ||| (if hasFlag f 0x8 then 0x8 else 0)) ∧
    (within f 0x1f = true → hasFlag f 0x1 = false → within f (0x2 ||| 0x4 ||| 0x10) = true →
      (f = ((if hasFlag f 0x4 then 0x4 else 0) ||| 0x2) ||| (if hasFlag f 0x10 then 0x10 else 0)) ∨
      (f ||| 0x2 = ((if hasFlag f 0x4 then 0x4 else 0) ||| 0x2) |||
        (if hasFlag f 0x10 then 0x10 else 0) ∧ hasFlag f 0x2 = false)) := by
  decide +kernel

/-- C13. Every event written is read back as the same event; and an event that is read successfully
carries exactly the flag byte and fields that writing it would produce, the one exception being an
out event whose out bit is missing, for example a zeroed slot. -/
theorem event_codec (v : EventView) :
    (Event.new v).asView = .ok v ∧
    ∀ e : Event, e.flags < 256 → e.asView = .ok v →
      (e.flags = (Event.new v).flags ∨
        ((∃ a b c d f g h i, v = .out a b c d f g h i) ∧ hasFlag e.flags 0x2 = false ∧
          e.flags ||| 0x2 = (Event.new v).flags)) ∧
      e.ownerSlot = (Event.new v).ownerSlot ∧ e.released = (Event.new v).released ∧
      e.paid = (Event.new v).paid ∧ e.orderId = (Event.new v).orderId ∧
      e.owner = (Event.new v).owner ∧ e.clientId = (Event.new v).clientId ∧
      (hasFlag e.flags 0x1 = true →
        e.feeTier = (Event.new v).feeTier ∧ e.feeOrRebate = (Event.new v).feeOrRebate) := by
  refine ⟨Event.asView_new v, fun e hf h => ?_⟩
  have tab := event_flag_table e.flags hf
  unfold Event.asView at h
  rw [except_bind_ok] at h
  obtain ⟨_, h1, h⟩ := h
  rw [rustAssert_ok] at h1
  simp only at h
  cases hfill : hasFlag e.flags 0x1 with
  | true =>
    rw [hfill, if_pos rfl, except_bind_ok] at h
    obtain ⟨_, h2, h⟩ := h
    rw [checkAssert_ok] at h2
    have hflags := tab.1 h1 hfill h2
    split at h
    · cases h
    · rename_i tier ht
      cases h
      refine ⟨.inl ?_, rfl, rfl, rfl, rfl, rfl, rfl, fun _ => ⟨(ofU8_eq ht).symm, rfl⟩⟩
      refine hflags.trans ?_
      simp only [Event.new]
      cases hasFlag e.flags 0x4 <;> rfl
  | false =>
    rw [hfill, if_neg (by simp), except_bind_ok] at h
    obtain ⟨_, h2, h⟩ := h
    rw [checkAssert_ok] at h2
    have hflags := tab.2 h1 hfill h2
    cases h
    refine ⟨?_, rfl, rfl, rfl, rfl, rfl, rfl, fun hc => by cases hc⟩
    rcases hflags with hflags | ⟨hflags, hout⟩
    · left
      refine hflags.trans ?_
      simp only [Event.new]
      cases hasFlag e.flags 0x4 <;> rfl
    · right
      refine ⟨⟨_, _, _, _, _, _, _, _, rfl⟩, hout, ?_⟩
      refine hflags.trans ?_
      simp only [Event.new]
      cases hasFlag e.flags 0x4 <;> rfl

/-- Finding F9: a zeroed slot, whose flag byte no write produces, reads as an out event. -/
theorem zero_slot_reads_as_out :
    Event.zero.asView = .ok (.out .ask false 0 0 0 0 0 0) ∧ ∀ v, (Event.new v).flags ≠ Event.zero.flags := by
  refine ⟨by simp [Event.zero, Event.asView, rustAssert, within, hasFlag, checkAssert, bind,
    Except.bind, pure, Except.pure], ?_⟩
  intro v
  cases v with
  | fill s m => cases s <;> cases m <;> simp [Event.new, Event.zero]
  | out s m => cases s <;> cases m <;> simp [Event.new, Event.zero]

/-- Flag bytes with both kinds, or with unknown bits, are rejected. -/
example : (∀ v, Event.asView { Event.zero with flags := 0x3 } ≠ .ok v) ∧
    (∀ v, Event.asView { Event.zero with flags := 0x40 } ≠ .ok v) := by
  constructor <;> intro v h <;>
  simp [Event.asView, rustAssert, within, hasFlag, checkAssert, bind, Except.bind] at h

set_option synthInstance.maxSize 1000 in
set_option synthInstance.maxHeartbeats 200000 in
/-- The complete table of request flag bytes. -/
theorem request_flag_table : ∀ f < 256,
    (within f 0x3f = true → hasFlag f 0x01 = true →
      within f (0x01 ||| 0x04 ||| 0x08 ||| 0x10) = true →
      f = (0x01 ||| (if hasFlag f 0x04 then 0x04 else 0)) |||
        ((if hasFlag f 0x08 then 0x08 else 0) ||| (if hasFlag f 0x10 then 0x10 else 0))) ∧
    (within f 0x3f = true → hasFlag f 0x01 = false → hasFlag f 0x02 = true →
      within f (0x02 ||| 0x04) = true → f = 0x02 ||| (if hasFlag f 0x04 then 0x04 else 0)) := by
  decide +kernel

/-- C14. Every request written (new-order requests have a non-zero quantity) is read back as the
same request, and any slot that is read successfully carries exactly the flag byte and fields that
writing the result produces, so contradictory flags are never accepted. -/
theorem request_codec (v : RequestView) (hv : v.Valid) :
    (Request.new v).asView = .ok v ∧
    ∀ r : Request, r.flags < 256 → r.asView = .ok v →
      r.flags = (Request.new v).flags ∧ r.ownerSlot = (Request.new v).ownerSlot ∧
      r.maxCoinQtyOrCancelId = (Request.new v).maxCoinQtyOrCancelId ∧
      r.orderId = (Request.new v).orderId ∧ r.owner = (Request.new v).owner ∧
      r.clientId = (Request.new v).clientId ∧
      (hasFlag r.flags 0x01 = true → r.feeTier = (Request.new v).feeTier ∧
        r.stb = (Request.new v).stb ∧ r.pcLocked = (Request.new v).pcLocked) := by
  refine ⟨Request.asView_new v hv, fun r hf h => ?_⟩
  have tab := request_flag_table r.flags hf
  unfold Request.asView at h
  rw [except_bind_ok] at h
  obtain ⟨_, h1, h⟩ := h
  rw [rustAssert_ok] at h1
  simp only at h
  cases hnew : hasFlag r.flags 0x01 with
  | true =>
    rw [hnew, if_pos rfl, except_bind_ok] at h
    obtain ⟨_, h2, h⟩ := h
    rw [checkAssert_ok] at h2
    have hflags := tab.1 h1 hnew h2
    cases hp : hasFlag r.flags 0x08 <;> cases hi : hasFlag r.flags 0x10 <;> rw [hp, hi] at h hflags <;>
      simp only at h
    case true.true => cases h
    all_goals
      simp only [bind, pure, Except.pure, Except.bind] at h
      split at h
      · rename_i h3 h4
        split at h
        · cases h
        · cases h
          refine ⟨?_, rfl, rfl, rfl, rfl, rfl,
            fun _ => ⟨(ofU8_eq h3).symm, (stb_ofCode_eq h4).symm, rfl⟩⟩
          refine hflags.trans ?_
          simp only [Request.new]
          cases hasFlag r.flags 0x04 <;> rfl
      · cases h
  | false =>
    rw [hnew, if_neg (by simp), except_bind_ok] at h
    obtain ⟨_, h2, h⟩ := h
    rw [checkAssert_ok] at h2
    rw [except_bind_ok] at h
    obtain ⟨_, h3, h⟩ := h
    rw [checkAssert_ok] at h3
    have hflags := tab.2 h1 hnew h2 h3
    cases h
    refine ⟨?_, rfl, rfl, rfl, rfl, rfl, fun hc => by cases hc⟩
    refine hflags.trans ?_
    simp only [Request.new]
    cases hasFlag r.flags 0x04 <;> rfl

example : RequestView.Valid (.newOrder .bid .ioc 3 .srm4 77 10 500 9 42 .cancelProvide) ∧
    (Request.new (.newOrder .bid .ioc 3 .srm4 77 10 500 9 42 .cancelProvide)).flags = 0x15 := by
  constructor <;> simp [RequestView.Valid, Request.new]

end Serum.Props
