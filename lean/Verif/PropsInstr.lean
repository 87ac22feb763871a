import Verif.Instr
import Verif.PropsCodec

/-!
Properties C15–C16: instruction encoding and decoding.
-/

namespace Serum.Props

abbrev U16 (n : Nat) : Prop := n < 256 ^ 2
abbrev U64 (n : Nat) : Prop := n < 256 ^ 8
abbrev U128 (n : Nat) : Prop := n < 256 ^ 16
/-- `NonZeroU64`. -/
abbrev NZ (n : Nat) : Prop := n ≠ 0 ∧ n < 256 ^ 8
abbrev I64 (t : Int) : Prop := -9223372036854775808 ≤ t ∧ t < 9223372036854775808

/-- The values the Rust type `NewOrderInstructionV3` can hold. -/
def OrderValid (o : NewOrderIx) : Prop :=
  NZ o.limitPrice ∧ NZ o.maxCoinQty ∧ NZ o.maxPcQty ∧ U64 o.clientId ∧ U16 o.limit ∧ I64 o.maxTs

/-- The values the Rust type `NewOrderInstructionV1` can hold. -/
def V1Valid (o : NewOrderV1Ix) : Prop := NZ o.limitPrice ∧ NZ o.maxQty ∧ U64 o.clientId

/-- The values the Rust type `MarketInstruction` can hold; batches of at most 8 replacements. -/
def IxValid : Instruction → Prop
  | .initializeMarket i => U64 i.coinLotSize ∧ U64 i.pcLotSize ∧ U16 i.feeRateBps ∧
      U64 i.vaultSignerNonce ∧ U64 i.pcDustThreshold
  | .newOrder i => V1Valid i
  | .matchOrders l | .consumeEvents l | .prune l | .consumeEventsPermissioned l => U16 l
  | .cancelOrder _ id o slot => U128 id ∧ U64 o.1 ∧ U64 o.2.1 ∧ U64 o.2.2.1 ∧ U64 o.2.2.2 ∧
      slot < 256 ^ 1
  | .settleFunds | .disableMarket | .sweepFees | .closeOpenOrders | .initOpenOrders => True
  | .cancelOrderByClientId c | .cancelOrderByClientIdV2 c => U64 c
  | .newOrderV2 i _ => V1Valid i
  | .newOrderV3 i | .replaceOrderByClientId i => OrderValid i
  | .cancelOrderV2 _ id => U128 id
  | .sendTake i => NZ i.limitPrice ∧ NZ i.maxCoinQty ∧ NZ i.maxPcQty ∧ U64 i.minCoinQty ∧
      U64 i.minPcQty ∧ U16 i.limit
  | .cancelOrdersByClientIds ids => ids.length = 8 ∧ ∀ c ∈ ids, U64 c
  | .replaceOrdersByClientIds is => is.length ≤ 8 ∧ ∀ i ∈ is, OrderValid i

/-- Payload lengths accepted per instruction kind. -/
def LenOk (kind len : Nat) : Prop :=
  (kind, len) ∈ [(0, 34), (1, 32), (2, 2), (3, 2), (4, 53), (5, 0), (6, 8), (7, 0), (8, 0), (9, 36),
    (10, 46), (10, 54), (11, 20), (12, 8), (13, 46), (14, 0), (15, 0), (16, 2), (17, 2), (19, 54)] ∨
  (kind = 18 ∧ ∃ n ≤ 8, len = 8 * n) ∨ (kind = 20 ∧ ∃ n ≤ 8, len = 8 + 54 * n)

theorem side_code (s : Side) : Side.ofCode s.toCode = some s ∧ s.toCode < 256 ^ 4 := by
  cases s <;> decide
theorem type_code (s : OrderType) : OrderType.ofCode s.toCode = some s ∧ s.toCode < 256 ^ 4 := by
  cases s <;> decide
theorem stb_code (s : SelfTradeBehavior) :
    SelfTradeBehavior.ofCode s.toCode = some s ∧ s.toCode < 256 ^ 4 := by
  cases s <;> decide

theorem side_ofCode_eq {n : Nat} {t : Side} (h : Side.ofCode n = some t) : t.toCode = n := by
  unfold Side.ofCode at h
  split at h <;> first | (cases h; rfl) | cases h
theorem type_ofCode_eq {n : Nat} {t : OrderType} (h : OrderType.ofCode n = some t) : t.toCode = n := by
  unfold OrderType.ofCode at h
  split at h <;> first | (cases h; rfl) | cases h

/-- What decoding an order record says about raw field values. -/
theorem order_unpack_raw {a b c d e f g h t : Nat} (ha : a < 256 ^ 4) (hb : b < 256 ^ 8)
    (hc : c < 256 ^ 8) (hd : d < 256 ^ 8) (he : e < 256 ^ 4) (hf : f < 256 ^ 4) (hg : g < 256 ^ 8)
    (hh : h < 256 ^ 2) (ht : t < 256 ^ 8) :
    NewOrderIx.unpack (leBytes 4 a ++ (leBytes 8 b ++ (leBytes 8 c ++ (leBytes 8 d ++ (leBytes 4 e ++
      (leBytes 4 f ++ (leBytes 8 g ++ (leBytes 2 h ++ leBytes 8 t)))))))) =
    match Side.ofCode a, SelfTradeBehavior.ofCode e, OrderType.ofCode f with
    | some side, some stb, some ty =>
      if b = 0 ∨ c = 0 ∨ d = 0 then none else some ⟨side, b, c, d, stb, ty, g, h, i64OfNat t⟩
    | _, _, _ => none := by
  simp only [NewOrderIx.unpack, readLe_append ha, readLe_append hb, readLe_append hc,
    readLe_append hd, readLe_append he, readLe_append hf, readLe_append hg, readLe_append hh,
    readLe_self ht]
  cases Side.ofCode a <;> cases SelfTradeBehavior.ofCode e <;> cases OrderType.ofCode f <;>
    by_cases hb0 : b = 0 <;> by_cases hc0 : c = 0 <;> by_cases hd0 : d = 0 <;>
    simp [hb0, hc0, hd0, bind, Option.bind]

theorem pow8 : (256 : Nat) ^ 8 = 18446744073709551616 := by decide

theorem order_round (o : NewOrderIx) (h : OrderValid o) : NewOrderIx.unpack o.pack = some o := by
  obtain ⟨h1, h2, h3, h4, h5, h6⟩ := h
  unfold NewOrderIx.pack
  rw [order_unpack_raw (side_code _).2 h1.2 h2.2 h3.2 (stb_code _).2 (type_code _).2 h4 h5
    (by rw [pow8]; exact i64ToNat_lt _), (side_code _).1, (stb_code _).1, (type_code _).1]
  simp [h1.1, h2.1, h3.1, i64_round h6.1 h6.2]

theorem order_pack_length (o : NewOrderIx) : o.pack.length = 54 := by simp [NewOrderIx.pack]

theorem v1_pack_length (o : NewOrderV1Ix) : o.pack.length = 32 := by simp [NewOrderV1Ix.pack]

/-- Decoding an order record is injective: the record re-encodes to the same bytes. -/
theorem order_strict (d : List UInt8) (hd : d.length = 54) (o : NewOrderIx)
    (h : NewOrderIx.unpack d = some o) : OrderValid o ∧ o.pack = d := by
  obtain ⟨a, r, ha, rfl, hr⟩ := split_le 4 d (by omega)
  obtain ⟨b, r, hb, rfl, hr⟩ := split_le 8 r (by omega)
  obtain ⟨c, r, hc, rfl, hr⟩ := split_le 8 r (by omega)
  obtain ⟨e, r, he, rfl, hr⟩ := split_le 8 r (by omega)
  obtain ⟨f, r, hf, rfl, hr⟩ := split_le 4 r (by omega)
  obtain ⟨g, r, hg, rfl, hr⟩ := split_le 4 r (by omega)
  obtain ⟨i, r, hi, rfl, hr⟩ := split_le 8 r (by omega)
  obtain ⟨j, r, hj, rfl, hr⟩ := split_le 2 r (by omega)
  obtain ⟨k, r, hk, rfl, hr⟩ := split_le 8 r (by omega)
  have : r = [] := List.eq_nil_of_length_eq_zero (by omega)
  subst this
  rw [List.append_nil] at h ⊢
  rw [order_unpack_raw ha hb hc he hf hg hi hj hk] at h
  split at h
  · rename_i side stb ty h1 h2 h3
    split at h
    · cases h
    · rename_i hz
      cases h
      have hk' : k < 18446744073709551616 := by rw [← pow8]; exact hk
      refine ⟨⟨⟨fun e => hz (.inl e), hb⟩, ⟨fun e => hz (.inr (.inl e)), hc⟩,
        ⟨fun e => hz (.inr (.inr e)), he⟩, hi, hj, i64OfNat_range hk'⟩, ?_⟩
      simp only [NewOrderIx.pack]
      rw [side_ofCode_eq h1, stb_ofCode_eq h2, type_ofCode_eq h3, i64_round' hk']
  · cases h

theorem v1_unpack_raw {a b c d e : Nat} (ha : a < 256 ^ 4) (hb : b < 256 ^ 8) (hc : c < 256 ^ 8)
    (hd : d < 256 ^ 4) (he : e < 256 ^ 8) :
    NewOrderV1Ix.unpack (leBytes 4 a ++ (leBytes 8 b ++ (leBytes 8 c ++ (leBytes 4 d ++ leBytes 8 e))))
    = match Side.ofCode a, OrderType.ofCode d with
    | some side, some ty => if b = 0 ∨ c = 0 then none else some ⟨side, b, c, ty, e⟩
    | _, _ => none := by
  simp only [NewOrderV1Ix.unpack, readLe_append ha, readLe_append hb, readLe_append hc,
    readLe_append hd, readLe_self he]
  cases Side.ofCode a <;> cases OrderType.ofCode d <;>
    by_cases hb0 : b = 0 <;> by_cases hc0 : c = 0 <;> simp [hb0, hc0, bind, Option.bind]

theorem v1_round (o : NewOrderV1Ix) (h : V1Valid o) : NewOrderV1Ix.unpack o.pack = some o := by
  obtain ⟨h1, h2, h3⟩ := h
  unfold NewOrderV1Ix.pack
  rw [v1_unpack_raw (side_code _).2 h1.2 h2.2 (type_code _).2 h3, (side_code _).1, (type_code _).1]
  simp [h1.1, h2.1]

theorem v1_strict (d : List UInt8) (hd : d.length = 32) (o : NewOrderV1Ix)
    (h : NewOrderV1Ix.unpack d = some o) : V1Valid o ∧ o.pack = d := by
  obtain ⟨a, r, ha, rfl, hr⟩ := split_le 4 d (by omega)
  obtain ⟨b, r, hb, rfl, hr⟩ := split_le 8 r (by omega)
  obtain ⟨c, r, hc, rfl, hr⟩ := split_le 8 r (by omega)
  obtain ⟨e, r, he, rfl, hr⟩ := split_le 4 r (by omega)
  obtain ⟨f, r, hf, rfl, hr⟩ := split_le 8 r (by omega)
  have : r = [] := List.eq_nil_of_length_eq_zero (by omega)
  subst this
  rw [List.append_nil] at h ⊢
  rw [v1_unpack_raw ha hb hc he hf] at h
  split at h
  · rename_i side ty h1 h3
    split at h
    · cases h
    · rename_i hz
      cases h
      refine ⟨⟨⟨fun e => hz (.inl e), hb⟩, ⟨fun e => hz (.inr e), hc⟩, hf⟩, ?_⟩
      simp only [NewOrderV1Ix.pack]
      rw [side_ofCode_eq h1, type_ofCode_eq h3]
  · cases h

theorem take_unpack_raw {a b c d e f g : Nat} (ha : a < 256 ^ 4) (hb : b < 256 ^ 8)
    (hc : c < 256 ^ 8) (hd : d < 256 ^ 8) (he : e < 256 ^ 8) (hf : f < 256 ^ 8) (hg : g < 256 ^ 2) :
    SendTakeIx.unpack (leBytes 4 a ++ (leBytes 8 b ++ (leBytes 8 c ++ (leBytes 8 d ++
      (leBytes 8 e ++ (leBytes 8 f ++ leBytes 2 g)))))) =
    match Side.ofCode a with
    | some side => if b = 0 ∨ c = 0 ∨ d = 0 then none else some ⟨side, b, c, d, e, f, g⟩
    | _ => none := by
  simp only [SendTakeIx.unpack, readLe_append ha, readLe_append hb, readLe_append hc,
    readLe_append hd, readLe_append he, readLe_append hf, readLe_self hg]
  cases Side.ofCode a <;>
    by_cases hb0 : b = 0 <;> by_cases hc0 : c = 0 <;> by_cases hd0 : d = 0 <;>
      simp [hb0, hc0, hd0, bind, Option.bind]

theorem take_strict (d : List UInt8) (hd : d.length = 46) (o : SendTakeIx)
    (h : SendTakeIx.unpack d = some o) : IxValid (.sendTake o) ∧ o.pack = d := by
  obtain ⟨a, r, ha, rfl, hr⟩ := split_le 4 d (by omega)
  obtain ⟨b, r, hb, rfl, hr⟩ := split_le 8 r (by omega)
  obtain ⟨c, r, hc, rfl, hr⟩ := split_le 8 r (by omega)
  obtain ⟨e, r, he, rfl, hr⟩ := split_le 8 r (by omega)
  obtain ⟨f, r, hf, rfl, hr⟩ := split_le 8 r (by omega)
  obtain ⟨g, r, hg, rfl, hr⟩ := split_le 8 r (by omega)
  obtain ⟨i, r, hi, rfl, hr⟩ := split_le 2 r (by omega)
  have : r = [] := List.eq_nil_of_length_eq_zero (by omega)
  subst this
  rw [List.append_nil] at h ⊢
  rw [take_unpack_raw ha hb hc he hf hg hi] at h
  split at h
  · rename_i side h1
    split at h
    · cases h
    · rename_i hz
      cases h
      refine ⟨⟨⟨fun e => hz (.inl e), hb⟩, ⟨fun e => hz (.inr (.inl e)), hc⟩,
        ⟨fun e => hz (.inr (.inr e)), he⟩, hf, hg, hi⟩, ?_⟩
      simp only [SendTakeIx.pack]
      rw [side_ofCode_eq h1]
  · cases h

theorem packList_length {α : Type} (f : α → List UInt8) (k : Nat) (hf : ∀ a, (f a).length = k)
    (as : List α) : (packList f as).length = as.length * k := by
  induction as with
  | nil => simp [packList]
  | cons a as ih => simp [packList, hf, ih, Nat.add_mul]; omega

theorem orders_round (os : List NewOrderIx) (h : ∀ o ∈ os, OrderValid o) :
    unpackOrders os.length (packList NewOrderIx.pack os) = some os := by
  induction os with
  | nil => rfl
  | cons o os ih =>
    simp only [List.length_cons, unpackOrders, packList]
    rw [List.take_left' (order_pack_length o), List.drop_left' (order_pack_length o),
      order_round o (h o (by simp)), ih (fun x hx => h x (by simp [hx]))]
    rfl

theorem orders_strict (n : Nat) (d : List UInt8) (hd : d.length = 54 * n) (os : List NewOrderIx)
    (h : unpackOrders n d = some os) :
    os.length = n ∧ (∀ o ∈ os, OrderValid o) ∧ packList NewOrderIx.pack os = d := by
  induction n generalizing d os with
  | zero =>
    simp only [unpackOrders] at h
    cases h
    have : d = [] := List.eq_nil_of_length_eq_zero (by omega)
    simp [packList, this]
  | succ n ih =>
    simp only [unpackOrders, bind, Option.bind_eq_some_iff] at h
    obtain ⟨o, h1, os', h2, h3⟩ := h
    cases h3
    obtain ⟨v, e⟩ := order_strict (d.take 54) (by rw [List.length_take]; omega) o h1
    obtain ⟨l, vs, es⟩ := ih (d.drop 54) (by rw [List.length_drop]; omega) os' h2
    refine ⟨by simp [l], ?_, ?_⟩
    · intro x hx
      cases hx with
      | head => exact v
      | tail _ hx => exact vs x hx
    · rw [packList, e, es, List.take_append_drop]

theorem ids_round (ids : List Nat) (h : ∀ c ∈ ids, U64 c) :
    readIds ids.length (packList (leBytes 8) ids) = ids := by
  induction ids with
  | nil => rfl
  | cons c ids ih =>
    simp only [List.length_cons, readIds, packList]
    rw [List.take_left' (leBytes_length 8 c), List.drop_left' (leBytes_length 8 c),
      ofLe_leBytes 8 c (h c (by simp)), ih (fun x hx => h x (by simp [hx]))]

theorem ids_strict (n : Nat) (d : List UInt8) (hd : d.length = 8 * n) :
    (readIds n d).length = n ∧ (∀ c ∈ readIds n d, U64 c) ∧ packList (leBytes 8) (readIds n d) = d := by
  induction n generalizing d with
  | zero =>
    have : d = [] := List.eq_nil_of_length_eq_zero (by omega)
    simp [readIds, packList, this]
  | succ n ih =>
    obtain ⟨l, vs, es⟩ := ih (d.drop 8) (by rw [List.length_drop]; omega)
    have hl : (d.take 8).length = 8 := by rw [List.length_take]; omega
    refine ⟨by simp [readIds, l], ?_, ?_⟩
    · intro x hx
      simp only [readIds] at hx
      cases hx with
      | head => have := ofLe_lt (d.take 8); rwa [hl] at this
      | tail _ hx => exact vs x hx
    · have := leBytes_ofLe (d.take 8)
      rw [hl] at this
      rw [readIds, packList, this, es, List.take_append_drop]

theorem packList_append {α : Type} (f : α → List UInt8) (as bs : List α) :
    packList f (as ++ bs) = packList f as ++ packList f bs := by
  induction as with
  | nil => rfl
  | cons a as ih => simp [packList, ih]

theorem packList_zeros (n : Nat) :
    packList (leBytes 8) (List.replicate n 0) = List.replicate (8 * n) 0 := by
  induction n with
  | zero => rfl
  | succ n ih =>
    rw [List.replicate_succ, packList, ih, show 8 * (n + 1) = 8 + 8 * n by omega,
      ← List.replicate_append_replicate]
    rfl

/-- The kind number fits and the payload length is one the decoder accepts. -/
theorem body_lengths (i : Instruction) (h : IxValid i) :
    i.body.1 < 256 ^ 4 ∧ i.body.2.length ≤ 8 + 54 * 8 := by
  cases i <;> refine ⟨by simp [Instruction.body], ?_⟩ <;>
    try (simp [Instruction.body, v1_pack_length, order_pack_length, SendTakeIx.pack])
  case cancelOrdersByClientIds ids =>
    rw [packList_length _ 8 (leBytes_length 8), h.1]; decide
  case replaceOrdersByClientIds is =>
    rw [packList_length _ 54 order_pack_length]
    have := h.1
    omega

/-- C15. Decoding the encoding of any instruction gives the instruction back. -/
theorem instruction_round_trip (i : Instruction) (h : IxValid i) :
    Instruction.unpack i.pack = some i := by
  obtain ⟨hk, hl⟩ := body_lengths i h
  unfold Instruction.unpack Instruction.pack
  rw [if_neg (by simp; omega), readLe_append (by decide)]
  simp only [ne_eq, not_true_eq_false, if_false]
  rw [readLe_append hk]
  simp only
  clear hk hl
  cases i <;> simp only [IxValid] at h <;> simp only [Instruction.body] <;>
    simp only [Instruction.unpackBody]
  case initializeMarket i =>
    obtain ⟨h1, h2, h3, h4, h5⟩ := h
    simp only [List.length_append, leBytes_length, if_true, readLe_append h1, readLe_append h2,
      readLe_append h3, readLe_append h4, readLe_self h5]
  case newOrder i => rw [if_pos (v1_pack_length i), v1_round i h]; rfl
  case matchOrders l => rw [if_pos (leBytes_length ..), readLe_self h]
  case consumeEvents l => rw [if_pos (leBytes_length ..), readLe_self h]
  case cancelOrder side id o slot =>
    obtain ⟨h1, h2, h3, h4, h5, h6⟩ := h
    simp only [List.length_append, leBytes_length, if_true, readLe_append (side_code side).2,
      readLe_append h1, readLe_append h2, readLe_append h3, readLe_append h4, readLe_append h5,
      readLe_self h6, (side_code side).1]
    rfl
  case settleFunds => rfl
  case cancelOrderByClientId c => rw [if_pos (leBytes_length ..), readLe_self h]
  case disableMarket => rfl
  case sweepFees => rfl
  case newOrderV2 i stb =>
    rw [if_pos (by simp [v1_pack_length]), List.take_left' (v1_pack_length i),
      List.drop_left' (v1_pack_length i), v1_round i h, readLe_self (stb_code stb).2]
    simp only [(stb_code stb).1, bind, Option.bind]
    rfl
  case newOrderV3 i =>
    rw [if_neg (by simp [order_pack_length]), if_pos (order_pack_length i), order_round i h]; rfl
  case cancelOrderV2 side id =>
    simp only [List.length_append, leBytes_length, if_true, readLe_append (side_code side).2,
      readLe_self h, (side_code side).1]
    rfl
  case cancelOrderByClientIdV2 c => rw [if_pos (leBytes_length ..), readLe_self h]
  case sendTake i =>
    obtain ⟨h1, h2, h3, h4, h5, h6⟩ := h
    rw [if_pos (by simp [SendTakeIx.pack])]
    unfold SendTakeIx.pack
    rw [take_unpack_raw (side_code _).2 h1.2 h2.2 h3.2 h4 h5 h6, (side_code _).1]
    simp [h1.1, h2.1, h3.1]
  case closeOpenOrders => rfl
  case initOpenOrders => rfl
  case prune l => rw [if_pos (leBytes_length ..), readLe_self h]
  case consumeEventsPermissioned l => rw [if_pos (leBytes_length ..), readLe_self h]
  case cancelOrdersByClientIds ids =>
    have hl : (packList (leBytes 8) ids).length = 64 := by
      rw [packList_length _ 8 (leBytes_length 8), h.1]
    rw [hl, if_pos (by decide), show 64 / 8 = ids.length by rw [h.1], ids_round ids h.2, h.1]
    simp
  case replaceOrderByClientId i => rw [if_pos (order_pack_length i), order_round i h]; rfl
  case replaceOrdersByClientIds is =>
    have hl : (leBytes 8 is.length ++ packList NewOrderIx.pack is).length = 8 + 54 * is.length := by
      rw [List.length_append, packList_length _ 54 order_pack_length, leBytes_length]; omega
    have h1 := h.1
    rw [hl, if_pos (by omega), show (8 + 54 * is.length - 8) / 54 = is.length by omega,
      readLe_append (by rw [pow8]; omega), if_neg (by simp), List.drop_left' (leBytes_length ..),
      orders_round is h.2]
    rfl

/-- C16. A byte string is accepted only if it consists of version 0, the 4-byte kind and a payload of
a length that kind allows, every field within its type's range (non-zero where required); and the
payload is the encoding of the decoded instruction, except that a 46-byte new order lacks the final
8-byte deadline, which decodes as the maximum, and a short client-id batch lacks trailing zeros. -/
theorem decoding_is_strict (bytes : List UInt8) (i : Instruction)
    (h : Instruction.unpack bytes = some i) :
    ∃ payload, bytes = 0 :: (leBytes 4 i.body.1 ++ payload) ∧ LenOk i.body.1 payload.length ∧
      IxValid i ∧
      (payload = i.body.2 ∨
        (∃ o, i = .newOrderV3 o ∧ payload.length = 46 ∧ o.maxTs = i64Max ∧
          i.body.2 = payload ++ leBytes 8 (i64ToNat i64Max)) ∨
        (∃ ids, i = .cancelOrdersByClientIds ids ∧
          i.body.2 = payload ++ List.replicate (64 - payload.length) 0)) := by
  unfold Instruction.unpack at h
  split at h
  · cases h
  rename_i hlen
  obtain ⟨v, r, hv, rfl, hr⟩ := split_le 1 bytes (by omega)
  rw [readLe_append hv] at h
  simp only at h
  split at h
  · cases h
  rename_i hv0
  have hv0 : v = 0 := by omega
  subst hv0
  obtain ⟨k, d, hk, rfl, hd⟩ := split_le 4 r (by omega)
  rw [readLe_append hk] at h
  simp only at h
  suffices hs : i.body.1 = k ∧ LenOk k d.length ∧ IxValid i ∧
      (d = i.body.2 ∨
        (∃ o, i = .newOrderV3 o ∧ d.length = 46 ∧ o.maxTs = i64Max ∧
          i.body.2 = d ++ leBytes 8 (i64ToNat i64Max)) ∨
        (∃ ids, i = .cancelOrdersByClientIds ids ∧
          i.body.2 = d ++ List.replicate (64 - d.length) 0)) by
    obtain ⟨e, h1, h2, h3⟩ := hs
    exact ⟨d, by rw [e]; rfl, by rw [e]; exact h1, h2, h3⟩
  clear hlen hr hd hv
  unfold Instruction.unpackBody at h
  split at h
  · -- initialize
    split at h
    · rename_i hl
      obtain ⟨a, r, ha, rfl, hr⟩ := split_le 8 d (by omega)
      obtain ⟨b, r, hb, rfl, hr⟩ := split_le 8 r (by omega)
      obtain ⟨c, r, hc, rfl, hr⟩ := split_le 2 r (by omega)
      obtain ⟨e, r, he, rfl, hr⟩ := split_le 8 r (by omega)
      obtain ⟨f, r, hf, rfl, hr⟩ := split_le 8 r (by omega)
      have : r = [] := List.eq_nil_of_length_eq_zero (by omega)
      subst this
      rw [readLe_append ha] at h
      simp only [readLe_append hb, readLe_append hc, readLe_append he, readLe_append hf] at h
      cases h
      exact ⟨rfl, by rw [hl]; simp [LenOk], ⟨ha, hb, hc, he, hf⟩, .inl (by simp [Instruction.body])⟩
    · cases h
  · -- new order
    split at h
    · rename_i hl
      rw [Option.map_eq_some_iff] at h
      obtain ⟨o, h1, rfl⟩ := h
      obtain ⟨hv, e⟩ := v1_strict d hl o h1
      exact ⟨rfl, by rw [hl]; simp [LenOk], hv, .inl e.symm⟩
    · cases h
  · -- match
    split at h
    · rename_i hl
      cases h
      have := leBytes_ofLe d
      have hb := ofLe_lt d
      rw [hl] at this hb
      rw [readLe, List.take_of_length_le (by omega)]
      exact ⟨rfl, by rw [hl]; simp [LenOk], hb, .inl this.symm⟩
    · cases h
  · split at h
    · rename_i hl
      cases h
      have := leBytes_ofLe d
      have hb := ofLe_lt d
      rw [hl] at this hb
      rw [readLe, List.take_of_length_le (by omega)]
      exact ⟨rfl, by rw [hl]; simp [LenOk], hb, .inl this.symm⟩
    · cases h
  · -- cancel
    split at h
    · rename_i hl
      obtain ⟨a, r, ha, rfl, hr⟩ := split_le 4 d (by omega)
      obtain ⟨b, r, hb, rfl, hr⟩ := split_le 16 r (by omega)
      obtain ⟨c, r, hc, rfl, hr⟩ := split_le 8 r (by omega)
      obtain ⟨e, r, he, rfl, hr⟩ := split_le 8 r (by omega)
      obtain ⟨f, r, hf, rfl, hr⟩ := split_le 8 r (by omega)
      obtain ⟨g, r, hg, rfl, hr⟩ := split_le 8 r (by omega)
      obtain ⟨j, r, hj, rfl, hr⟩ := split_le 1 r (by omega)
      have : r = [] := List.eq_nil_of_length_eq_zero (by omega)
      subst this
      rw [readLe_append ha] at h
      simp only [readLe_append hb, readLe_append hc, readLe_append he, readLe_append hf,
        readLe_append hg, readLe_append hj] at h
      rw [Option.map_eq_some_iff] at h
      obtain ⟨s, h1, rfl⟩ := h
      exact ⟨rfl, by rw [hl]; simp [LenOk], ⟨hb, hc, he, hf, hg, hj⟩,
        .inl (by simp [Instruction.body, side_ofCode_eq h1])⟩
    · cases h
  · split at h
    · rename_i hl
      cases h
      exact ⟨rfl, by rw [hl]; simp [LenOk], trivial, .inl (List.eq_nil_of_length_eq_zero hl)⟩
    · cases h
  · split at h
    · rename_i hl
      cases h
      have := leBytes_ofLe d
      have hb := ofLe_lt d
      rw [hl] at this hb
      rw [readLe, List.take_of_length_le (by omega)]
      exact ⟨rfl, by rw [hl]; simp [LenOk], hb, .inl this.symm⟩
    · cases h
  · split at h
    · rename_i hl
      cases h
      exact ⟨rfl, by rw [hl]; simp [LenOk], trivial, .inl (List.eq_nil_of_length_eq_zero hl)⟩
    · cases h
  · split at h
    · rename_i hl
      cases h
      exact ⟨rfl, by rw [hl]; simp [LenOk], trivial, .inl (List.eq_nil_of_length_eq_zero hl)⟩
    · cases h
  · -- new order v2
    split at h
    · rename_i hl
      simp only [bind, Option.bind_eq_some_iff] at h
      obtain ⟨o, h1, stb, h2, h3⟩ := h
      cases h3
      obtain ⟨hv, e⟩ := v1_strict (d.take 32) (by rw [List.length_take]; omega) o h1
      refine ⟨rfl, by rw [hl]; simp [LenOk], hv, .inl ?_⟩
      have hl' : (d.drop 32).length = 4 := by rw [List.length_drop]; omega
      have := leBytes_ofLe (d.drop 32)
      rw [hl'] at this
      rw [readLe, List.take_of_length_le (by omega)] at h2
      simp only [Instruction.body]
      rw [e, stb_ofCode_eq h2, this, List.take_append_drop]
    · cases h
  · -- new order v3
    split at h
    · rename_i hl
      rw [Option.map_eq_some_iff] at h
      obtain ⟨o, h1, rfl⟩ := h
      obtain ⟨hv, e⟩ := order_strict _ (by simp [hl]) o h1
      refine ⟨rfl, by rw [hl]; simp [LenOk], hv, .inr (.inl ⟨o, rfl, hl, ?_, e⟩)⟩
      have e2 := e
      unfold NewOrderIx.pack at e2
      rw [← List.append_assoc, ← List.append_assoc, ← List.append_assoc, ← List.append_assoc,
        ← List.append_assoc, ← List.append_assoc, ← List.append_assoc] at e2
      have e3 := List.append_inj_right e2 (by simp [hl])
      have := congrArg ofLe e3
      rw [ofLe_leBytes 8 _ (by rw [pow8]; exact i64ToNat_lt _),
        ofLe_leBytes 8 _ (by rw [pow8]; exact i64ToNat_lt _)] at this
      rw [← i64_round hv.2.2.2.2.2.1 hv.2.2.2.2.2.2, this]
      decide
    · split at h
      · rename_i hl
        rw [Option.map_eq_some_iff] at h
        obtain ⟨o, h1, rfl⟩ := h
        obtain ⟨hv, e⟩ := order_strict d hl o h1
        exact ⟨rfl, by rw [hl]; simp [LenOk], hv, .inl e.symm⟩
      · cases h
  · -- cancel v2
    split at h
    · rename_i hl
      obtain ⟨a, r, ha, rfl, hr⟩ := split_le 4 d (by omega)
      obtain ⟨b, r, hb, rfl, hr⟩ := split_le 16 r (by omega)
      have : r = [] := List.eq_nil_of_length_eq_zero (by omega)
      subst this
      rw [readLe_append ha] at h
      simp only [readLe_append hb] at h
      rw [Option.map_eq_some_iff] at h
      obtain ⟨s, h1, rfl⟩ := h
      exact ⟨rfl, by rw [hl]; simp [LenOk], hb,
        .inl (by simp [Instruction.body, side_ofCode_eq h1])⟩
    · cases h
  · split at h
    · rename_i hl
      cases h
      have := leBytes_ofLe d
      have hb := ofLe_lt d
      rw [hl] at this hb
      rw [readLe, List.take_of_length_le (by omega)]
      exact ⟨rfl, by rw [hl]; simp [LenOk], hb, .inl this.symm⟩
    · cases h
  · split at h
    · rename_i hl
      rw [Option.map_eq_some_iff] at h
      obtain ⟨o, h1, rfl⟩ := h
      obtain ⟨hv, e⟩ := take_strict d hl o h1
      exact ⟨rfl, by rw [hl]; simp [LenOk], hv, .inl e.symm⟩
    · cases h
  · split at h
    · rename_i hl
      cases h
      exact ⟨rfl, by rw [hl]; simp [LenOk], trivial, .inl (List.eq_nil_of_length_eq_zero hl)⟩
    · cases h
  · split at h
    · rename_i hl
      cases h
      exact ⟨rfl, by rw [hl]; simp [LenOk], trivial, .inl (List.eq_nil_of_length_eq_zero hl)⟩
    · cases h
  · split at h
    · rename_i hl
      cases h
      have := leBytes_ofLe d
      have hb := ofLe_lt d
      rw [hl] at this hb
      rw [readLe, List.take_of_length_le (by omega)]
      exact ⟨rfl, by rw [hl]; simp [LenOk], hb, .inl this.symm⟩
    · cases h
  · split at h
    · rename_i hl
      cases h
      have := leBytes_ofLe d
      have hb := ofLe_lt d
      rw [hl] at this hb
      rw [readLe, List.take_of_length_le (by omega)]
      exact ⟨rfl, by rw [hl]; simp [LenOk], hb, .inl this.symm⟩
    · cases h
  · -- client id batch
    split at h
    · rename_i hl
      cases h
      obtain ⟨l, vs, es⟩ := ids_strict (d.length / 8) d (by omega)
      refine ⟨rfl, .inr (.inl ⟨rfl, d.length / 8, by omega, by omega⟩), ⟨?_, ?_⟩,
        .inr (.inr ⟨_, rfl, ?_⟩)⟩
      · rw [List.length_append, l, List.length_replicate]; omega
      · intro c hc
        rcases List.mem_append.1 hc with hc | hc
        · exact vs c hc
        · rw [(List.mem_replicate.1 hc).2]; decide
      · simp only [Instruction.body]
        rw [packList_append, es, packList_zeros]
        congr 2
        omega
    · cases h
  · split at h
    · rename_i hl
      rw [Option.map_eq_some_iff] at h
      obtain ⟨o, h1, rfl⟩ := h
      obtain ⟨hv, e⟩ := order_strict d hl o h1
      exact ⟨rfl, by rw [hl]; simp [LenOk], hv, .inl e.symm⟩
    · cases h
  · -- replacement batch
    split at h
    · rename_i hl
      split at h
      · cases h
      · rename_i hc
        rw [Option.map_eq_some_iff] at h
        obtain ⟨os, h1, rfl⟩ := h
        obtain ⟨l, vs, es⟩ := orders_strict _ (d.drop 8) (by rw [List.length_drop]; omega) os h1
        refine ⟨rfl, .inr (.inr ⟨rfl, (d.length - 8) / 54, by omega, by omega⟩), ⟨by omega, vs⟩,
          .inl ?_⟩
        simp only [Instruction.body]
        have hc : (readLe 8 d).1 = (d.length - 8) / 54 := by
          rcases Nat.decEq (readLe 8 d).1 ((d.length - 8) / 54) with e | e
          · exact absurd e hc
          · exact e
        have ht : (d.take 8).length = 8 := by rw [List.length_take]; omega
        have := leBytes_ofLe (d.take 8)
        rw [ht] at this
        rw [es, l, ← hc, readLe]
        simp only
        rw [this, List.take_append_drop]
    · cases h
  · cases h

/-- C16, consequence: two accepted strings of the same length that decode to the same instruction are
equal. -/
theorem decoding_is_injective (b₁ b₂ : List UInt8) (i : Instruction) (hl : b₁.length = b₂.length)
    (h₁ : Instruction.unpack b₁ = some i) (h₂ : Instruction.unpack b₂ = some i) : b₁ = b₂ := by
  obtain ⟨p₁, rfl, -, -, a₁⟩ := decoding_is_strict b₁ i h₁
  obtain ⟨p₂, rfl, -, -, a₂⟩ := decoding_is_strict b₂ i h₂
  have hl : p₁.length = p₂.length := by simpa using hl
  congr 2
  have pre : ∀ p : List UInt8, (p = i.body.2 ∨
        (∃ o, i = .newOrderV3 o ∧ p.length = 46 ∧ o.maxTs = i64Max ∧
          i.body.2 = p ++ leBytes 8 (i64ToNat i64Max)) ∨
        (∃ ids, i = .cancelOrdersByClientIds ids ∧
          i.body.2 = p ++ List.replicate (64 - p.length) 0)) → ∃ q, i.body.2 = p ++ q := by
    intro p hp
    rcases hp with hp | ⟨_, _, _, _, hp⟩ | ⟨_, _, hp⟩
    · exact ⟨[], by rw [List.append_nil, hp]⟩
    · exact ⟨_, hp⟩
    · exact ⟨_, hp⟩
  obtain ⟨q₁, e₁⟩ := pre p₁ a₁
  obtain ⟨q₂, e₂⟩ := pre p₂ a₂
  exact List.append_inj_left (e₁.symm.trans e₂) hl

/-- A new order, and a batch with two replacements and a negative deadline, meet the hypotheses. -/
example : IxValid (.newOrderV3 ⟨.bid, 100, 5, 5000, .cancelProvide, .postOnly, 7, 10, i64Max⟩) ∧
    IxValid (.replaceOrdersByClientIds [⟨.bid, 100, 5, 5000, .cancelProvide, .ioc, 7, 10, -3⟩,
      ⟨.ask, 1, 2, 3, .decrementTake, .limit, 0, 65535, 12⟩]) := by
  simp [IxValid, OrderValid, i64Max, NZ, I64]

/-- A short new order is accepted with the maximal deadline; a zero price, a wrong version, an unknown
kind and a wrong count are rejected. -/
example :
    Instruction.unpack ((Instruction.newOrderV3
      ⟨.bid, 100, 5, 5000, .cancelProvide, .postOnly, 7, 10, i64Max⟩).pack.take 51) =
      some (.newOrderV3 ⟨.bid, 100, 5, 5000, .cancelProvide, .postOnly, 7, 10, i64Max⟩) ∧
    Instruction.unpack ((Instruction.newOrderV3
      ⟨.bid, 0, 5, 5000, .cancelProvide, .postOnly, 7, 10, i64Max⟩).pack) = none ∧
    Instruction.unpack [1, 5, 0, 0, 0] = none ∧ Instruction.unpack [0, 21, 0, 0, 0] = none ∧
    Instruction.unpack [0, 20, 0, 0, 0, 1, 0, 0, 0, 0, 0, 0, 0] = none := by
  decide +kernel

end Serum.Props
