import Verif.Layout
import Verif.PropsFees
import Verif.PropsAuth
import Verif.Demo

/-!
C53 (accounts load back exactly as stored) and C54 (no account loads as another kind).
-/

namespace Serum.Props

/-! ### Slices -/

theorem middle_padded (b : List UInt8) : middle (padded b) = b := by
  unfold middle padded
  have e1 : (headPad ++ (b ++ tailPad)).drop 5 = b ++ tailPad := List.drop_left' rfl
  rw [e1]
  exact List.take_left' (by simp [headPad, tailPad])

theorem checkPadding_padded {b : List UInt8} (h : b.length % 8 = 0) : checkPadding (padded b) = .ok b := by
  have hm := middle_padded b
  have e1 : (padded b).take 5 = headPad := List.take_left' rfl
  have el : (padded b).length = b.length + 12 := by simp [padded, headPad, tailPad]
  have e2 : (padded b).drop ((padded b).length - 7) = tailPad := by
    rw [el]
    unfold padded
    rw [← List.append_assoc]
    exact List.drop_left' (by simp [headPad])
  unfold checkPadding
  rw [e1, e2, el, hm]
  simp [checkAssert, bind, Except.bind, h, pure, Except.pure]

theorem packList_length' {α : Type} {f : α → List UInt8} {k : Nat} {l : List α} (hf : ∀ a ∈ l, (f a).length = k) :
    (packList f l).length = k * l.length := by
  induction l with
  | nil => simp [packList]
  | cons a as ih =>
    simp only [packList, List.length_append, List.length_cons, hf a (by simp), ih (fun b hb => hf b (by simp [hb])),
      Nat.mul_succ]
    omega

theorem items_cons {k : Nat} (hk : 0 < k) {x r : List UInt8} (hx : x.length = k) : items k (x ++ r) = x :: items k r := by
  unfold items
  have : (x ++ r).length / k = r.length / k + 1 := by
    rw [List.length_append, hx, Nat.add_comm, Nat.add_div_right _ hk]
  rw [this, List.range_succ_eq_map, List.map_cons, List.map_map]
  congr 1
  · simp [List.take_left' hx]
  · apply List.map_congr_left
    intro i _
    simp only [Function.comp]
    congr 1
    rw [Nat.mul_succ, Nat.add_comm, ← List.drop_drop, List.drop_left' hx]

theorem items_pack {α : Type} {f : α → List UInt8} {k : Nat} {l : List α} (hk : 0 < k)
    (hf : ∀ a ∈ l, (f a).length = k) {slop : List UInt8} (hs : slop.length < k) :
    items k (packList f l ++ slop) = l.map f := by
  induction l with
  | nil => simp [packList, items, Nat.div_eq_of_lt hs]
  | cons a as ih =>
    rw [packList, List.append_assoc, items_cons hk (hf a (by simp)), ih (fun b hb => hf b (by simp [hb]))]
    rfl

/-! ### C53: markets -/

/-- The fields of a market are machine words and addresses, and one without authorities has none recorded. -/
structure MarketFits (m : Market) : Prop where
  fit : FieldsFit m.fieldsV2
  v1 : m.permissioned = false → m.ooAuthority = 0 ∧ m.pruneAuthority = 0 ∧ m.crankAuthority = 0

theorem fields_v2_split (m : Market) (h : FieldsFit m.fieldsV2) : FieldsFit m.fieldsV1 :=
  fun f hf => h f (List.mem_append.2 (.inl hf))

theorem fieldsV1_length (m : Market) : (packFields m.fieldsV1).length = 376 := by
  rw [packFields_length]; simp [Market.fieldsV1]

theorem fieldsV2_length (m : Market) : (packFields m.fieldsV2).length = 1464 := by
  rw [packFields_length]; simp [Market.fieldsV1, Market.fieldsV2]

theorem widthsV1_sum : marketWidthsV1.sum = 376 := by simp [marketWidthsV1]
theorem widthsV2_sum : marketWidthsV2.sum = 1464 := by simp [marketWidthsV1, marketWidthsV2]

theorem marketFrom_v1 (m : Market) (h : FieldsFit m.fieldsV1) :
    marketFrom marketWidthsV1 (padded (packFields m.fieldsV1)) =
      .ok { m with ooAuthority := 0, pruneAuthority := 0, crankAuthority := 0 } := by
  have hl := fieldsV1_length m
  unfold marketFrom
  rw [checkPadding_padded (by rw [hl])]
  have hr := read_pack m.fieldsV1 [] h
  rw [List.append_nil] at hr
  have e : m.fieldsV1.map (·.1) = marketWidthsV1 := rfl
  rw [e] at hr
  simp only [bind, Except.bind, hl, widthsV1_sum, rustAssert, beq_self_eq_true, if_true, pure, Except.pure, hr]
  rfl

theorem marketFrom_v2 (m : Market) (h : FieldsFit m.fieldsV2) :
    marketFrom marketWidthsV2 (padded (packFields m.fieldsV2)) = .ok m := by
  have hl := fieldsV2_length m
  unfold marketFrom
  rw [checkPadding_padded (by rw [hl])]
  have hr := read_pack m.fieldsV2 [] h
  rw [List.append_nil] at hr
  have e : m.fieldsV2.map (·.1) = marketWidthsV2 := rfl
  rw [e] at hr
  simp only [bind, Except.bind, hl, widthsV2_sum, rustAssert, beq_self_eq_true, if_true, pure, Except.pure, hr]
  rfl

theorem market_body (m : Market) :
    ∃ r, packFields (if m.permissioned then m.fieldsV2 else m.fieldsV1) = packFields m.fieldsV1 ++ r := by
  cases m.permissioned
  · exact ⟨[], by simp⟩
  · exact ⟨_, packFields_append _ _⟩

theorem first_field (m : Market) (h : FieldsFit m.fieldsV2) (r : List UInt8) :
    ofLe ((packFields m.fieldsV1 ++ r).take 8) = m.flags := by
  have e : packFields m.fieldsV1 = leBytes 8 m.flags ++ packFields m.fieldsV1.tail := rfl
  rw [e, List.append_assoc, List.take_left' (leBytes_length 8 _),
    ofLe_leBytes _ _ (h (8, m.flags) (by simp [Market.fieldsV2, Market.fieldsV1]))]

theorem accountFlags_market (m : Market) (h : FieldsFit m.fieldsV2) :
    accountFlags m.bytes = if !within m.flags 0x7ff then .error .invalidMarketFlags else .ok m.flags := by
  obtain ⟨r, e⟩ := market_body m
  unfold accountFlags Market.bytes
  rw [e]
  have e1 : (padded (packFields m.fieldsV1 ++ r)).drop 5 = packFields m.fieldsV1 ++ (r ++ tailPad) := by
    unfold padded
    rw [List.drop_left' (show headPad.length = 5 from rfl), List.append_assoc]
  have e2 : 13 ≤ (padded (packFields m.fieldsV1 ++ r)).length := by
    simp only [padded, List.length_append, fieldsV1_length]
    omega
  rw [e1, first_field m h]
  simp [checkAssert, e2, bind, Except.bind]

/-- C53 (markets). Loading the bytes of a market gives back the market, if its flags permit. -/
theorem market_bytes (m : Market) (h : MarketFits m) (allow : Bool) :
    loadMarketBytes true m.bytes allow = (checkMarketFlags m.flags allow).map fun _ => m := by
  unfold loadMarketBytes
  rw [accountFlags_market m h.fit]
  cases hw : within m.flags 0x7ff with
  | false => simp [hw, bind, Except.bind, checkMarketFlags, Except.map]
  | true =>
    have hload : marketFrom (if hasFlag m.flags 512 then marketWidthsV2 else marketWidthsV1) m.bytes = .ok m := by
      unfold Market.bytes
      have hpe : hasFlag m.flags 512 = m.permissioned := rfl
      rw [hpe]
      cases hp : m.permissioned with
      | false =>
        simp only [Bool.false_eq_true, if_false]
        rw [marketFrom_v1 m (fields_v2_split m h.fit)]
        obtain ⟨z1, z2, z3⟩ := h.v1 hp
        obtain ⟨⟩ := m
        simp only at z1 z2 z3
        subst z1; subst z2; subst z3
        rfl
      | true =>
        simp only [if_true]
        exact marketFrom_v2 m h.fit
    simp only [Bool.not_true, Bool.false_eq_true, if_false, bind, Except.bind, checkAssert, if_true, hload]
    cases checkMarketFlags m.flags allow <;> rfl

/-! ### C53: open orders accounts -/

/-- An open orders account has 128 order ids and 128 client ids, and machine words. -/
structure OrdersFit (o : OpenOrders) (market : Nat) : Prop where
  ids : o.orders.length = 128
  cids : o.clientIds.length = 128
  fit : FieldsFit (o.fields market)

theorem oo_widths (o : OpenOrders) (mk : Nat) (h : OrdersFit o mk) : (o.fields mk).map (·.1) = ooWidths := by
  simp only [OpenOrders.fields, ooWidths, List.map_append, List.map_cons, List.map_nil, List.map_map, Function.comp_def,
    List.map_const', h.ids, h.cids]

theorem ooWidths_sum : ooWidths.sum = 3216 := by
  simp only [ooWidths, List.sum_append_nat, List.sum_replicate_nat]
  rfl

theorem oo_values (o : OpenOrders) (mk : Nat) : (o.fields mk).map (·.2) =
    (if o.closed then 256 else 5) :: mk :: o.owner :: o.coinFree :: o.coinTotal :: o.pcFree :: o.pcTotal ::
      o.freeBits.toNat :: o.bidBits.toNat :: (o.orders ++ (o.clientIds ++ [o.rebates])) := by
  simp [OpenOrders.fields, Function.comp_def]

/-- C53 (open orders). Loading the bytes of an open orders account of market `mk` for market `mk'` and an
expected owner gives back the account, provided it is open and market and owner are the expected ones. -/
theorem orders_bytes (o : OpenOrders) (mk mk' : Nat) (owner : Option Nat) (h : OrdersFit o mk) :
    loadOrdersBytes true (o.bytes mk) mk' owner =
      if o.closed ∨ mk ≠ mk' ∨ (owner ≠ none ∧ owner ≠ some o.owner) then .error .wrongOrdersAccount else .ok o := by
  have hr := read_pack (o.fields mk) [] h.fit
  rw [List.append_nil, oo_widths o mk h, oo_values] at hr
  have hl : (packFields (o.fields mk)).length = 3216 := by
    rw [packFields_length, oo_widths o mk h, ooWidths_sum]
  have hb : (o.bytes mk).length = 3228 := by
    simp only [OpenOrders.bytes, padded, List.length_append, hl]
    rfl
  have hm : middle (o.bytes mk) = packFields (o.fields mk) := middle_padded _
  unfold loadOrdersBytes
  rw [hm, hb]
  simp only [hl, hr, ooWidths_sum, checkAssert, rustAssert, bind, Except.bind, if_true, beq_self_eq_true]
  simp only [show decide (12 ≤ 3228) = true from rfl, if_true, List.getD_cons_zero, List.getD_cons_succ]
  cases hc : o.closed with
  | true => simp [show within 256 2047 = true from by decide]
  | false =>
    have hof : OpenOrders.ofFields (5 :: mk :: o.owner :: o.coinFree :: o.coinTotal :: o.pcFree :: o.pcTotal ::
      o.freeBits.toNat :: o.bidBits.toNat :: (o.orders ++ (o.clientIds ++ [o.rebates]))) = o := by
      have e1 : ((o.orders ++ (o.clientIds ++ [o.rebates])).drop 128).take 128 = o.clientIds := by
        rw [List.drop_left' h.ids, List.take_left' h.cids]
      have e2 : (o.orders ++ (o.clientIds ++ [o.rebates])).getD 256 0 = o.rebates := by
        rw [List.getD_eq_getElem?_getD, List.getElem?_append_right (by rw [h.ids]; omega),
          List.getElem?_append_right (by rw [h.ids, h.cids]; omega), h.ids, h.cids]
        rfl
      simp only [OpenOrders.ofFields, List.getD_cons_zero, List.getD_cons_succ, List.drop_succ_cons, List.drop_zero,
        List.take_left' h.ids, e1, e2, BitVec.ofNat_toNat, BitVec.setWidth_eq]
      obtain ⟨⟩ := o
      simp only at hc
      subst hc
      rfl
    simp only [show within 5 2047 = true from by decide, Bool.false_eq_true, if_false, Bool.not_true, ne_eq,
      not_true_eq_false, false_or, hof]
    by_cases h1 : mk = mk'
    · by_cases h2 : owner = none
      · simp [h1, h2]
      · by_cases h3 : owner = some o.owner <;> simp [h1, h2, h3]
    · simp [h1]

/-! ### C53: queues and books -/

theorem event_roundtrip (e : Event) (h : FieldsFit e.fields) : Event.ofBytes e.bytes = e := by
  have hr := read_pack e.fields [] h
  rw [List.append_nil] at hr
  unfold Event.ofBytes Event.bytes
  have : e.fields.map (·.1) = eventWidths := rfl
  rw [this] at hr
  rw [hr]
  rfl

theorem event_length (e : Event) : e.bytes.length = 88 := by
  unfold Event.bytes
  rw [packFields_length]
  simp [Event.fields]

theorem node_roundtrip (n : Node) (h : FieldsFit n.fields) : Node.ofBytes n.bytes = n := by
  have key : ∀ (t : Nat) (fs : List (Nat × Nat)), FieldsFit ((4, t) :: fs) →
      ofLe ((packFields ((4, t) :: fs)).take 4) = t ∧ (packFields ((4, t) :: fs)).drop 4 = packFields fs ∧
      readFields (fs.map (·.1)) (packFields fs) = fs.map (·.2) := by
    intro t fs hf
    refine ⟨?_, ?_, ?_⟩
    · simp only [packFields]
      rw [List.take_left' (leBytes_length 4 t), ofLe_leBytes _ _ (hf (4, t) (by simp))]
    · simp only [packFields]
      exact List.drop_left' (leBytes_length 4 t)
    · have := read_pack fs [] (fun f hm => hf f (by simp [hm]))
      rwa [List.append_nil] at this
  unfold Node.ofBytes Node.bytes
  cases n with
  | uninit =>
    obtain ⟨a, _, _⟩ := key _ _ h
    simp only [Node.fields, a]
  | inner p k c0 c1 =>
    obtain ⟨a, b, c⟩ := key _ _ h
    have c' : readFields [4, 16, 4, 4] (packFields [(4, p), (16, k), (4, c0), (4, c1), (40, 0)]) = [p, k, c0, c1] := by
      have := congrArg (List.take 4) c
      simpa [readFields] using this
    simp only [Node.fields, a, b, c']
    rfl
  | leaf l =>
    obtain ⟨a, b, c⟩ := key _ _ h
    simp only [List.map_cons, List.map_nil] at c
    simp only [Node.fields, a, b, c]
    simp [FeeTier.ofU8_toU8]
  | free x =>
    obtain ⟨a, b, c⟩ := key _ _ h
    simp only [List.map_cons, List.map_nil, readFields, List.cons.injEq] at c
    simp only [Node.fields, a, b, c.1]
  | lastFree x =>
    obtain ⟨a, b, c⟩ := key _ _ h
    simp only [List.map_cons, List.map_nil, readFields, List.cons.injEq] at c
    simp only [Node.fields, a, b, c.1]

theorem node_length (n : Node) : n.bytes.length = 72 := by
  unfold Node.bytes
  rw [packFields_length]
  cases n <;> simp [Node.fields]

theorem stripHeader_padded {hdr body : List UInt8} (h : (hdr.length + body.length) % 8 = 0) :
    stripHeader hdr.length (padded (hdr ++ body)) = .ok (hdr, body) := by
  unfold stripHeader
  rw [checkPadding_padded (by simpa using h)]
  simp [bind, Except.bind, rustAssert, pure, Except.pure]

theorem map_roundtrip {α β : Type} {f : α → β} {g : β → α} {l : List α} (h : ∀ a ∈ l, g (f a) = a) :
    (l.map f).map g = l := by
  rw [List.map_map]
  conv => rhs; rw [← List.map_id l]
  exact List.map_congr_left fun a ha => h a ha

theorem checkFlags_self {f : Nat} (h : within f 0x7ff = true) : checkFlags f f = .ok () := by
  simp [checkFlags, h, rustAssert, checkAssert, bind, Except.bind]

/-- C53 (event queue). -/
theorem event_queue_bytes (q : Queue Event) (slop : List UInt8) (hh : q.head < W64) (hc : q.count < W64)
    (hs : q.seq < W64) (he : ∀ e ∈ q.buf, FieldsFit e.fields) (hl : slop.length < 88) (h8 : slop.length % 8 = 0) :
    loadEventQBytes (eventQBytes q slop) = .ok q := by
  have hfit : FieldsFit [(8, 17), (8, q.head), (8, q.count), (8, q.seq)] := by
    have : W64 = 256 ^ 8 := by decide
    rw [this] at hh hc hs
    intro f hf
    simp only [List.mem_cons, List.not_mem_nil, or_false] at hf
    rcases hf with rfl | rfl | rfl | rfl
    · decide
    all_goals assumption
  have hr := read_pack _ [] hfit
  rw [List.append_nil] at hr
  have hlen : (packFields [(8, 17), (8, q.head), (8, q.count), (8, q.seq)]).length = 32 := packFields_length _
  unfold loadEventQBytes eventQBytes
  have hst := stripHeader_padded (hdr := packFields [(8, 17), (8, q.head), (8, q.count), (8, q.seq)])
    (body := packList Event.bytes q.buf ++ slop) (by
      rw [hlen, List.length_append, packList_length' (k := 88) fun e _ => event_length e]; omega)
  rw [hlen] at hst
  rw [hst]
  simp only [bind, Except.bind]
  simp only [List.map_cons, List.map_nil] at hr
  rw [hr, items_pack (by omega) (fun e _ => event_length e) hl, map_roundtrip fun e he' => event_roundtrip e (he e he')]
  have hck : checkFlags 17 17 = .ok () := checkFlags_self (by decide)
  simp only [List.getD_cons_zero, hck]
  rfl

/-- C53 (request queue): the queue holds no requests; its counters are what matters. -/
theorem request_queue_bytes (head count seq : Nat) (slots : List UInt8) (hh : head < W64) (hc : count < W64)
    (hs : seq < W64) (h8 : slots.length % 8 = 0) :
    loadReqQBytes (reqQBytes head count seq slots) = .ok (head, count, seq, slots.length / 80) := by
  have hfit : FieldsFit [(8, 9), (8, head), (8, count), (8, seq)] := by
    have : W64 = 256 ^ 8 := by decide
    rw [this] at hh hc hs
    intro f hf
    simp only [List.mem_cons, List.not_mem_nil, or_false] at hf
    rcases hf with rfl | rfl | rfl | rfl
    · decide
    all_goals assumption
  have hr := read_pack _ [] hfit
  rw [List.append_nil] at hr
  have hlen : (packFields [(8, 9), (8, head), (8, count), (8, seq)]).length = 32 := packFields_length _
  unfold loadReqQBytes reqQBytes
  have hst := stripHeader_padded (hdr := packFields [(8, 9), (8, head), (8, count), (8, seq)])
    (body := slots) (by rw [hlen]; omega)
  rw [hlen] at hst
  rw [hst]
  simp only [bind, Except.bind]
  simp only [List.map_cons, List.map_nil] at hr
  rw [hr]
  have hck : checkFlags 9 9 = .ok () := checkFlags_self (by decide)
  simp only [List.getD_cons_zero, hck]
  rfl

/-- C53 (bids and asks). -/
theorem book_bytes (sd : Side) (s : Slab) (slop : List UInt8) (hf : FieldsFit s.fields)
    (hn : ∀ n ∈ s.nodes, FieldsFit n.fields) (hl : slop.length < 72) (h8 : slop.length % 8 = 0) :
    loadBookBytes sd (bookBytes sd s slop) = .ok s := by
  have hr := read_pack s.fields (packList Node.bytes s.nodes ++ slop) hf
  have hlen : (packFields s.fields).length = 32 := packFields_length _
  have h1 : (packFields [(8, sideFlags sd)]).length = 8 := packFields_length _
  have hfl : ofLe (packFields [(8, sideFlags sd)]) = sideFlags sd := by cases sd <;> decide
  have hpl : (packList Node.bytes s.nodes).length = 72 * s.nodes.length := packList_length' fun n _ => node_length n
  unfold loadBookBytes bookBytes
  have hst := stripHeader_padded (hdr := packFields [(8, sideFlags sd)]) (body := s.bytes ++ slop) (by
      rw [h1, List.length_append, Slab.bytes, List.length_append, hlen, hpl]; omega)
  rw [h1] at hst
  rw [hst]
  simp only [bind, Except.bind, hfl]
  have hck : checkFlags (sideFlags sd) (sideFlags sd) = .ok () := checkFlags_self (by cases sd <;> decide)
  simp only [hck]
  unfold Slab.ofBytes Slab.bytes
  have h32 : 32 ≤ ((packFields s.fields ++ packList Node.bytes s.nodes) ++ slop).length := by
    simp only [List.length_append, hlen]; omega
  rw [List.append_assoc] at h32 ⊢
  have e : s.fields.map (·.1) = [8, 8, 4, 4, 8] := rfl
  rw [e] at hr
  simp only [rustAssert, bind, Except.bind, h32, decide_true, if_true, hr, List.drop_left' hlen,
    items_pack (show 0 < 72 by omega) (fun n _ => node_length n) hl, map_roundtrip fun n hn' => node_roundtrip n (hn n hn')]
  rfl

/-! ### C54 -/

/-- The flags word of an account. -/
def flagsWord (d : List UInt8) : Nat := ofLe ((d.drop 5).take 8)

/-- The six kinds of accounts. -/
inductive Kind where
  | market | orders | requests | events | bids | asks
  deriving DecidableEq

/-- Account bytes `d` load as kind `k` (for some market, owner and purpose). -/
def LoadsAs (d : List UInt8) : Kind → Prop
  | .market => ∃ owned allow m, loadMarketBytes owned d allow = .ok m
  | .orders => ∃ owned market owner o, loadOrdersBytes owned d market owner = .ok o
  | .requests => ∃ r, loadReqQBytes d = .ok r
  | .events => ∃ q, loadEventQBytes d = .ok q
  | .bids => ∃ s, loadBookBytes .bid d = .ok s
  | .asks => ∃ s, loadBookBytes .ask d = .ok s

/-- The flag words of each kind. -/
def kindFlags : Kind → List Nat
  | .market => [3, 515, 1539, 131, 643, 1667]
  | .orders => [5]
  | .requests => [9]
  | .events => [17]
  | .bids => [33]
  | .asks => [65]

theorem checkPadding_ok {d b : List UInt8} (h : checkPadding d = .ok b) : b = middle d ∧ 12 ≤ d.length := by
  unfold checkPadding at h
  obtain ⟨_, h1, h⟩ := bind_ok h
  obtain ⟨_, _, h⟩ := bind_ok h
  obtain ⟨_, _, h⟩ := bind_ok h
  obtain ⟨_, _, h⟩ := bind_ok h
  cases h
  exact ⟨rfl, by simpa using checkAssert_ok.1 h1⟩

theorem take_middle {d : List UInt8} {k : Nat} (h : k ≤ (middle d).length) : (middle d).take k = (d.drop 5).take k := by
  unfold middle at *
  rw [List.take_take]
  congr 1
  rw [List.length_take] at h
  omega

theorem stripHeader_ok {k : Nat} {d h b : List UInt8} (hk : 8 ≤ k) (hs : stripHeader k d = .ok (h, b)) :
    ofLe (h.take 8) = flagsWord d := by
  unfold stripHeader at hs
  obtain ⟨m, hm, hs⟩ := bind_ok hs
  obtain ⟨_, hl, hs⟩ := bind_ok hs
  have hl := rustAssert_ok.1 hl
  simp only [decide_eq_true_eq] at hl
  cases hs
  obtain ⟨rfl, _⟩ := checkPadding_ok hm
  rw [List.take_take, Nat.min_eq_left hk, take_middle (by omega)]
  rfl

theorem checkFlags_ok {f w : Nat} (h : checkFlags f w = .ok ()) : f = w := by
  unfold checkFlags at h
  obtain ⟨_, _, h⟩ := bind_ok h
  simpa using checkAssert_ok.1 h

theorem queue_flags {d h b : List UInt8} {w : Nat} (hs : stripHeader 32 d = .ok (h, b))
    (hc : checkFlags ((readFields [8, 8, 8, 8] h).getD 0 0) w = .ok ()) : flagsWord d = w := by
  rw [← stripHeader_ok (by omega) hs]
  exact checkFlags_ok hc

theorem book_flags {d : List UInt8} {s : Slab} {sd : Side} (h : loadBookBytes sd d = .ok s) : flagsWord d = sideFlags sd := by
  unfold loadBookBytes at h
  obtain ⟨⟨hd, b⟩, hs, h⟩ := bind_ok h
  obtain ⟨_, hc, _⟩ := bind_ok h
  rw [← stripHeader_ok (by omega) hs]
  have hl : hd.length = 8 := by
    unfold stripHeader at hs
    obtain ⟨m, hm, hs⟩ := bind_ok hs
    obtain ⟨_, hl, hs⟩ := bind_ok hs
    have hl := rustAssert_ok.1 hl
    simp only [decide_eq_true_eq] at hl
    cases hs
    simp only [List.length_take]
    omega
  rw [List.take_of_length_le (by omega)]
  exact checkFlags_ok hc

theorem market_flags_word {owned allow : Bool} {d : List UInt8} {m : Market}
    (h : loadMarketBytes owned d allow = .ok m) : flagsWord d ∈ kindFlags .market := by
  unfold loadMarketBytes at h
  obtain ⟨f, _, h⟩ := bind_ok h
  obtain ⟨_, _, h⟩ := bind_ok h
  obtain ⟨m', hm, h⟩ := bind_ok h
  obtain ⟨_, hf, h⟩ := bind_ok h
  cases h
  have key : m.flags = flagsWord d := by
    unfold marketFrom at hm
    obtain ⟨b, hb, hm⟩ := bind_ok hm
    obtain ⟨_, hl, hm⟩ := bind_ok hm
    have hl := rustAssert_ok.1 hl
    simp only [beq_iff_eq] at hl
    cases hm
    obtain ⟨rfl, _⟩ := checkPadding_ok hb
    have e : ∀ ws x, (Market.ofFields (readFields (8 :: ws) x)).flags = ofLe (x.take 8) := fun _ _ => rfl
    have h8 : 8 ≤ (middle d).length := by
      rw [hl]
      split <;> simp [widthsV1_sum, widthsV2_sum]
    unfold flagsWord
    rw [← take_middle h8]
    split
    · exact e _ _
    · exact e _ _
  rw [← key]
  have := (flags_cases _ _).1 hf
  simp only [kindFlags, List.mem_cons, List.not_mem_nil, or_false] at this ⊢
  omega

theorem orders_flags {owned : Bool} {d : List UInt8} {mk : Nat} {owner : Option Nat} {o : OpenOrders}
    (h : loadOrdersBytes owned d mk owner = .ok o) : flagsWord d = 5 := by
  unfold loadOrdersBytes at h
  obtain ⟨_, _, h⟩ := bind_ok h
  obtain ⟨_, _, h⟩ := bind_ok h
  obtain ⟨_, _, h⟩ := bind_ok h
  obtain ⟨_, hl, h⟩ := bind_ok h
  have hl := rustAssert_ok.1 hl
  simp only [beq_iff_eq] at hl
  have e : ∀ x, (readFields ooWidths x).getD 0 0 = ofLe (x.take 8) := fun _ => rfl
  unfold flagsWord
  rw [← take_middle (by rw [hl, ooWidths_sum]; omega), ← e]
  simp only at h
  split at h
  · cases h
  · split at h
    · cases h
    · rename_i h5
      omega

/-- What an account loads as shows in its flags. -/
theorem loads_flags {d : List UInt8} {k : Kind} (h : LoadsAs d k) : flagsWord d ∈ kindFlags k := by
  cases k with
  | market => obtain ⟨_, _, _, h⟩ := h; exact market_flags_word h
  | orders => obtain ⟨_, _, _, _, h⟩ := h; simp [kindFlags, orders_flags h]
  | requests =>
    obtain ⟨r, h⟩ := h
    unfold loadReqQBytes at h
    obtain ⟨⟨hd, b⟩, hs, h⟩ := bind_ok h
    obtain ⟨_, hc, _⟩ := bind_ok h
    simp [kindFlags, queue_flags hs hc]
  | events =>
    obtain ⟨r, h⟩ := h
    unfold loadEventQBytes at h
    obtain ⟨⟨hd, b⟩, hs, h⟩ := bind_ok h
    obtain ⟨_, hc, _⟩ := bind_ok h
    simp [kindFlags, queue_flags hs hc]
  | bids => obtain ⟨s, h⟩ := h; simp [kindFlags, book_flags h, sideFlags]
  | asks => obtain ⟨s, h⟩ := h; simp [kindFlags, book_flags h, sideFlags]

/-- C54. No bytes load as two different kinds of account: whatever bytes an account holds, if it is accepted as
one of market, open orders, request queue, event queue, bids, asks, it is rejected as each of the others. -/
theorem one_kind {d : List UInt8} {k k' : Kind} (h : LoadsAs d k) (h' : LoadsAs d k') : k = k' := by
  have h1 := loads_flags h
  have h2 := loads_flags h'
  cases k <;> cases k' <;> first
    | rfl
    | (simp only [kindFlags, List.mem_cons, List.not_mem_nil, or_false] at h1 h2; omega)

/-- C54, closed accounts: a closed open orders account loads as nothing. -/
theorem closed_is_nothing {o : OpenOrders} {mk : Nat} (hc : o.closed = true) (k : Kind) :
    ¬ LoadsAs (o.bytes mk) k := by
  intro hk
  have hw : flagsWord (o.bytes mk) = 256 := by
    unfold flagsWord OpenOrders.bytes padded
    rw [List.drop_left' (show headPad.length = 5 from rfl)]
    have e : packFields (o.fields mk) = leBytes 8 256 ++ packFields (o.fields mk).tail := by
      simp [OpenOrders.fields, packFields, hc]
    rw [e, List.append_assoc, List.take_left' (leBytes_length 8 _)]
    decide
  have := loads_flags hk
  rw [hw] at this
  cases k <;> simp [kindFlags] at this

/-- C54, blank accounts load as nothing. -/
theorem blank_is_nothing (n : Nat) (k : Kind) : ¬ LoadsAs (List.replicate n 0) k := by
  intro hk
  have hw : flagsWord (List.replicate n 0) = 0 := by
    unfold flagsWord
    rw [List.drop_replicate, List.take_replicate]
    generalize min 8 (n - 5) = j
    induction j with
    | zero => rfl
    | succ j ih => simp [List.replicate_succ, ofLe, ih]
  have := loads_flags hk
  rw [hw] at this
  cases k <;> simp [kindFlags] at this

/-! ### Examples -/

/-- The market of the demo, after trading, as it stands in its account. -/
example : loadMarketBytes true Demo.s3.mkt.bytes false = .ok Demo.s3.mkt := by
  have hf : Demo.s3.mkt.flags = 3 := by decide +kernel
  have h : MarketFits Demo.s3.mkt := by
    refine ⟨?_, fun _ => by decide +kernel⟩
    have : (Demo.s3.mkt.fieldsV2.all fun f => decide (f.2 < 256 ^ f.1)) = true := by decide +kernel
    intro f hf
    simpa using List.all_eq_true.1 this f hf
  rw [market_bytes _ h, hf]
  rfl

/-- Account 42 of trader 12 after a trade and with a resting order. -/
def demoOrders : OpenOrders := (ooAt Demo.s3.oos 42).getD (OpenOrders.init 0)

theorem demoOrders_fit : OrdersFit demoOrders 50 :=
  ⟨by decide +kernel, by decide +kernel, by
    have : ((demoOrders.fields 50).all fun f => decide (f.2 < 256 ^ f.1)) = true := by decide +kernel
    intro f hf
    simpa using List.all_eq_true.1 this f hf⟩

example : ooAt Demo.s3.oos 42 = some demoOrders ∧ demoOrders.pcTotal ≠ 0 ∧
    loadOrdersBytes true (demoOrders.bytes 50) 50 (some 12) = .ok demoOrders ∧
    loadOrdersBytes true (demoOrders.bytes 50) 50 (some 11) = .error .wrongOrdersAccount := by
  have h : demoOrders.owner = 12 ∧ demoOrders.closed = false := by decide +kernel
  refine ⟨by decide +kernel, by decide +kernel, ?_, ?_⟩
  · rw [orders_bytes _ _ _ _ demoOrders_fit, h.1, h.2]
    exact if_neg (by decide)
  · rw [orders_bytes _ _ _ _ demoOrders_fit, h.1, h.2]
    exact if_pos (by decide)

/-- The event queue and the bids of the demo. -/
example : loadEventQBytes (eventQBytes Demo.s3.q (List.replicate 80 0)) = .ok Demo.s3.q ∧ Demo.s3.q.count = 4 ∧
    loadBookBytes .bid (bookBytes .bid Demo.s3.bids (List.replicate 8 0)) = .ok Demo.s3.bids := by
  refine ⟨event_queue_bytes _ _ (by decide +kernel) (by decide +kernel) (by decide +kernel) ?_ (by simp) (by simp),
    by decide +kernel, book_bytes _ _ _ ?_ ?_ (by simp) (by simp)⟩
  · have : (Demo.s3.q.buf.all fun e => e.fields.all fun f => decide (f.2 < 256 ^ f.1)) = true := by decide +kernel
    intro e he f hf
    simpa using List.all_eq_true.1 (List.all_eq_true.1 this e he) f hf
  · have : (Demo.s3.bids.fields.all fun f => decide (f.2 < 256 ^ f.1)) = true := by decide +kernel
    intro f hf
    simpa using List.all_eq_true.1 this f hf
  · have : (Demo.s3.bids.nodes.all fun e => e.fields.all fun f => decide (f.2 < 256 ^ f.1)) = true := by decide +kernel
    intro e he f hf
    simpa using List.all_eq_true.1 (List.all_eq_true.1 this e he) f hf

end Serum.Props
