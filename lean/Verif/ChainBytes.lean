import Verif.Chain
import Verif.FitProc
import Verif.PropsInit

/-
Account bytes rewritten with another value of the same capacity: they keep their length and load as that value.
-/

namespace Serum

open Props

theorem checkPadding_shape {d b : List UInt8} (h : checkPadding d = .ok b) :
    b = middle d ∧ 12 ≤ d.length ∧ (d.length - 12) % 8 = 0 ∧ (middle d).length = d.length - 12 := by
  obtain ⟨h1, h2⟩ := checkPadding_ok h
  refine ⟨h1, h2, ?_, ?_⟩
  · unfold checkPadding at h
    obtain ⟨_, _, h⟩ := bind_ok h
    obtain ⟨_, _, h⟩ := bind_ok h
    obtain ⟨_, _, h⟩ := bind_ok h
    obtain ⟨_, h4, _⟩ := bind_ok h
    simpa using checkAssert_ok.1 h4
  · unfold middle
    rw [List.length_take, List.length_drop]
    omega

theorem stripHeader_shape {k : Nat} {d h b : List UInt8} (hs : stripHeader k d = .ok (h, b)) :
    h = (middle d).take k ∧ b = (middle d).drop k ∧ 12 + k ≤ d.length ∧ (d.length - 12) % 8 = 0 ∧
      (middle d).length = d.length - 12 := by
  unfold stripHeader at hs
  obtain ⟨m, hm, hs⟩ := bind_ok hs
  obtain ⟨_, hl, hs⟩ := bind_ok hs
  have hl := rustAssert_ok.1 hl
  cases hs
  obtain ⟨rfl, h1, h2, h3⟩ := checkPadding_shape hm
  simp only [decide_eq_true_eq, h3] at hl
  exact ⟨rfl, rfl, by omega, h2, h3⟩

theorem padded_length (b : List UInt8) : (padded b).length = b.length + 12 := by
  simp only [padded, List.length_append]
  simp only [headPad, tailPad, List.length_cons, List.length_nil]
  omega

theorem items_length (k : Nat) (d : List UInt8) : (items k d).length = d.length / k := by simp [items]

theorem put_event {d : List UInt8} {q q' : Queue Event} {z : Nat} (h : loadEventQBytes d = .ok q)
    (hl : q.buf.length = q'.buf.length) (hf : QueueFit z q') :
    loadEventQBytes (eventQBytes q' ((middle d).drop (32 + 88 * q.buf.length))) = .ok q' ∧
      (eventQBytes q' ((middle d).drop (32 + 88 * q.buf.length))).length = d.length := by
  unfold loadEventQBytes at h
  obtain ⟨⟨hd, b⟩, hs, h⟩ := bind_ok h
  obtain ⟨_, _, h⟩ := bind_ok h
  cases h
  obtain ⟨_, rfl, h1, h2, h3⟩ := stripHeader_shape hs
  simp only [List.length_map, items_length, List.length_drop, h3] at hl ⊢
  have h4 : ((middle d).drop (32 + 88 * ((d.length - 12 - 32) / 88))).length =
      (d.length - 12 - 32) - 88 * ((d.length - 12 - 32) / 88) := by
    rw [List.length_drop, h3]; omega
  refine ⟨event_queue_bytes _ _ hf.head hf.count hf.seq hf.buf ?_ ?_, ?_⟩
  · rw [h4]; omega
  · rw [h4]; omega
  · unfold eventQBytes
    rw [padded_length, List.length_append, List.length_append, packFields_length, h4,
      packList_length' (k := 88) fun e _ => event_length e]
    simp only [List.map_cons, List.map_nil, List.sum_cons, List.sum_nil]
    omega

theorem put_book {sd : Side} {d : List UInt8} {s s' : Slab} {z : Nat} (h : loadBookBytes sd d = .ok s)
    (hl : s.nodes.length = s'.nodes.length) (hf : SlabFit z s') :
    loadBookBytes sd (bookBytes sd s' ((middle d).drop (40 + 72 * s.nodes.length))) = .ok s' ∧
      (bookBytes sd s' ((middle d).drop (40 + 72 * s.nodes.length))).length = d.length := by
  unfold loadBookBytes at h
  obtain ⟨⟨hd, b⟩, hs, h⟩ := bind_ok h
  obtain ⟨_, _, h⟩ := bind_ok h
  unfold Slab.ofBytes at h
  obtain ⟨_, h0, h⟩ := bind_ok h
  have h0 := rustAssert_ok.1 h0
  cases h
  obtain ⟨_, rfl, h1, h2, h3⟩ := stripHeader_shape hs
  simp only [List.length_map, items_length, List.length_drop, h3, decide_eq_true_eq] at hl h0 ⊢
  have h4 : ((middle d).drop (40 + 72 * ((d.length - 12 - 8 - 32) / 72))).length =
      (d.length - 12 - 8 - 32) - 72 * ((d.length - 12 - 8 - 32) / 72) := by
    rw [List.length_drop, h3]; omega
  refine ⟨book_bytes _ _ _ hf.fields (fun n hn => (hf.nodes n hn).fields) ?_ ?_, ?_⟩
  · rw [h4]; omega
  · rw [h4]; omega
  · unfold bookBytes Slab.bytes
    rw [padded_length, List.length_append, List.length_append, List.length_append, packFields_length, packFields_length, h4,
      packList_length' (k := 72) fun e _ => node_length e]
    simp only [List.map_cons, List.map_nil, List.sum_cons, List.sum_nil, Slab.fields]
    omega

theorem put_seq {d : List UInt8} {hd cnt seq seq' n : Nat} (h : loadReqQBytes d = .ok (hd, cnt, seq, n)) (hh : hd < W64)
    (hc : cnt < W64) (hs : seq' < W64) :
    loadReqQBytes (putSeq d seq') = .ok (hd, cnt, seq', n) ∧ (putSeq d seq').length = d.length := by
  unfold loadReqQBytes at h
  obtain ⟨⟨hdr, b⟩, hst, h⟩ := bind_ok h
  obtain ⟨_, _, h⟩ := bind_ok h
  obtain ⟨rfl, rfl, h1, h2, h3⟩ := stripHeader_shape hst
  have h := Except.ok.inj h
  simp only [Prod.mk.injEq] at h
  obtain ⟨rfl, rfl, rfl, rfl⟩ := h
  unfold putSeq
  simp only
  have h4 : ((middle d).drop 32).length = d.length - 12 - 32 := by rw [List.length_drop, h3]
  refine ⟨?_, ?_⟩
  · rw [request_queue_bytes _ _ _ _ hh hc (Nat.mod_lt _ (by decide)) (by rw [h4]; omega), Nat.mod_eq_of_lt hs]
  · unfold reqQBytes
    rw [padded_length, List.length_append, packFields_length, h4]
    simp only [List.map_cons, List.map_nil, List.sum_cons, List.sum_nil]
    omega

theorem market_bytes_length (m : Market) : m.bytes.length = if m.permissioned then 1476 else 388 := by
  unfold Market.bytes
  rw [padded_length]
  cases m.permissioned
  · simp [fieldsV1_length]
  · simp [fieldsV2_length]

theorem market_flags_eq {owned allow : Bool} {d : List UInt8} {m : Market}
    (h : loadMarketBytes owned d allow = .ok m) : m.flags = flagsWord d ∧ checkMarketFlags m.flags allow = .ok () ∧
      owned = true ∧ d.length = if m.permissioned then 1476 else 388 := by
  unfold loadMarketBytes at h
  obtain ⟨f, hf, h⟩ := bind_ok h
  obtain ⟨_, ho, h⟩ := bind_ok h
  obtain ⟨m', hm, h⟩ := bind_ok h
  obtain ⟨_, hc, h⟩ := bind_ok h
  cases h
  have hff : f = flagsWord d := by
    unfold accountFlags at hf
    obtain ⟨_, _, hf⟩ := bind_ok hf
    simp only at hf
    split at hf
    · cases hf
    · exact (Except.ok.inj hf).symm
  unfold marketFrom at hm
  obtain ⟨b, hb, hm⟩ := bind_ok hm
  obtain ⟨_, hl, hm⟩ := bind_ok hm
  have hl := rustAssert_ok.1 hl
  simp only [beq_iff_eq] at hl
  cases hm
  obtain ⟨rfl, h1, h2, h3⟩ := checkPadding_shape hb
  have e : (Market.ofFields (readFields (if hasFlag f 512 then marketWidthsV2 else marketWidthsV1) (middle d))).flags =
      ofLe ((middle d).take 8) := by
    split <;> rfl
  have e8 : ofLe ((middle d).take 8) = flagsWord d := by
    rw [take_middle]
    · rfl
    · rw [hl]
      split
      · rw [widthsV2_sum]; omega
      · rw [widthsV1_sum]; omega
  refine ⟨e.trans e8, hc, checkAssert_ok.1 ho, ?_⟩
  unfold Market.permissioned
  rw [e, e8, ← hff]
  rw [h3] at hl
  split at hl
  · rename_i hp
    rw [widthsV2_sum] at hl
    rw [if_pos hp]; omega
  · rename_i hp
    rw [widthsV1_sum] at hl
    rw [if_neg hp]; omega

/-! ### Open-orders accounts -/

theorem ooWidths_head (x : List UInt8) : (readFields ooWidths x).getD 0 0 = ofLe (x.take 8) := rfl

theorem ooOf_some {k : Nat} {a : RawAcc} {o : OpenOrders} (h : ooOf k a = some o) :
    a.owned = true ∧ a.data.length = 3228 ∧ flagsWord a.data = (if o.closed then 256 else 5) ∧
      (readFields ooWidths (middle a.data)).getD 1 0 = k := by
  unfold ooOf at h
  split at h
  · rename_i h1
    simp only at h
    split at h
    · rename_i h2
      cases h
      have e : ofLe ((middle a.data).take 8) = flagsWord a.data := by
        rw [take_middle]
        · rfl
        · unfold middle
          rw [List.length_take, List.length_drop]; omega
      refine ⟨h1.1, h1.2, ?_, h2.2⟩
      rw [ooWidths_head, e] at h2
      show _ = if (_ == 256) = true then _ else _
      rw [ooWidths_head, e]
      rcases h2.1 with h | h <;> rw [h] <;> rfl
    · cases h
  · cases h

theorem ooOf_word {k : Nat} {a : RawAcc} {o : OpenOrders} (h : ooOf k a = some o) :
    flagsWord a.data = 5 ∨ flagsWord a.data = 256 := by
  rw [(ooOf_some h).2.2.1]
  cases o.closed
  · exact .inl rfl
  · exact .inr rfl

theorem ooOf_unique {k k' : Nat} {a : RawAcc} {o o' : OpenOrders} (h : ooOf k a = some o) (h' : ooOf k' a = some o') :
    k = k' := (ooOf_some h).2.2.2.symm.trans (ooOf_some h').2.2.2

theorem ooOf_none_word {k : Nat} {a : RawAcc} (h1 : flagsWord a.data ≠ 5) (h2 : flagsWord a.data ≠ 256) :
    ooOf k a = none := by
  cases h : ooOf k a with
  | none => rfl
  | some o => rcases ooOf_word h with e | e
              · exact absurd e h1
              · exact absurd e h2

theorem ooOf_unowned {k : Nat} {a : RawAcc} (h : a.owned = false) : ooOf k a = none := by
  cases e : ooOf k a with
  | none => rfl
  | some o => rw [(ooOf_some e).1] at h; cases h

theorem oo_bytes_length {o : OpenOrders} {k : Nat} (h : OrdersFit o k) : (o.bytes k).length = 3228 := by
  unfold OpenOrders.bytes
  rw [padded_length, packFields_length, oo_widths o k h, ooWidths_sum]

theorem oo_read {o : OpenOrders} {k : Nat} (h : OrdersFit o k) : readFields ooWidths (middle (o.bytes k)) =
    (o.fields k).map (·.2) := by
  unfold OpenOrders.bytes
  rw [middle_padded]
  have := read_pack (o.fields k) [] h.fit
  rw [List.append_nil, oo_widths o k h] at this
  exact this

theorem ofFields_values {o : OpenOrders} {k : Nat} (h : OrdersFit o k) :
    OpenOrders.ofFields ((o.fields k).map (·.2)) = o := by
  rw [oo_values]
  unfold OpenOrders.ofFields
  have e1 : ∀ a b c d e f g i j : Nat, ∀ l : List Nat, (a :: b :: c :: d :: e :: f :: g :: i :: j :: l).drop 9 = l := by
    intros; rfl
  have e2 : ∀ a b c d e f g i j : Nat, ∀ l : List Nat, (a :: b :: c :: d :: e :: f :: g :: i :: j :: l).drop 137 = l.drop 128 := by
    intros; rfl
  have e3 : ∀ a b c d e f g i j : Nat, ∀ l : List Nat,
      (a :: b :: c :: d :: e :: f :: g :: i :: j :: l).getD 265 0 = l.getD 256 0 := by
    intros; rfl
  have e4 : (o.orders ++ (o.clientIds ++ [o.rebates])).getD 256 0 = o.rebates := by
    rw [List.getD_eq_getElem?_getD, List.getElem?_append_right (by rw [h.ids]; omega),
      List.getElem?_append_right (by rw [h.ids, h.cids]; omega), h.ids, h.cids]
    rfl
  simp only [e1, e2, e3, e4]
  rw [List.take_left' h.ids, List.drop_left' h.ids, List.take_left' h.cids]
  have hc : ((if o.closed = true then 256 else 5) == 256) = o.closed := by cases o.closed <;> rfl
  simp only [List.getD_cons_zero, List.getD_cons_succ, hc, BitVec.ofNat_toNat, BitVec.setWidth_eq]

theorem ooOf_bytes {o : OpenOrders} {k k' : Nat} (h : OrdersFit o k) {a : RawAcc} (ho : a.owned = true)
    (hd : a.data = o.bytes k) : ooOf k' a = if k' = k then some o else none := by
  unfold ooOf
  rw [hd, if_pos ⟨ho, oo_bytes_length h⟩, oo_read h]
  simp only
  rw [ofFields_values h, oo_values]
  have e : ((if o.closed then 256 else 5 : Nat) = 5 ∨ (if o.closed then 256 else 5 : Nat) = 256) := by
    cases o.closed <;> simp
  by_cases hk : k' = k
  · subst hk
    rw [if_pos ⟨e, rfl⟩, if_pos rfl]
  · rw [if_neg hk, if_neg fun hh => hk hh.2.symm]

theorem flagsWord_zeros (n : Nat) : flagsWord (zeros n) = 0 := by
  unfold flagsWord zeros
  rw [List.drop_replicate, List.take_replicate]
  generalize min 8 (n - 5) = j
  induction j with
  | zero => rfl
  | succ j ih => simp [List.replicate_succ, ofLe, ih]

/-- Looking up among the decoded accounts. -/
theorem ooAt_filterMap (f : Nat → Option OpenOrders) (keys : List Nat) (a : Nat) :
    ooAt (keys.filterMap fun a => (f a).map (a, ·)) a = if a ∈ keys then f a else none := by
  unfold ooAt
  induction keys with
  | nil => rfl
  | cons k ks ih =>
    rw [List.filterMap_cons]
    by_cases hk : a = k
    · subst hk
      cases e : f a with
      | none =>
        simp only [Option.map_none, List.mem_cons, true_or, if_true]
        rw [ih, e]; simp
      | some o =>
        simp
    · have hm : (a ∈ k :: ks) = (a ∈ ks) := by simp [hk]
      cases e : f k with
      | none => simp only [Option.map_none, hm]; exact ih
      | some o =>
        simp only [Option.map_some, List.lookup_cons, hm]
        have : (a == k) = false := by simpa using hk
        rw [this]
        exact ih

end Serum
