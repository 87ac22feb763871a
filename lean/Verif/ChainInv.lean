import Verif.ChainBytes
import Verif.Local
import Verif.History

/-
The bytes of a chain represent, for each market on it, a state of the history of that market.
-/

namespace Serum

open Props

/-- The accounts of a market. -/
def Market.own (m : Market) : List Nat := [m.ownAddress, m.reqQ, m.eventQ, m.bids, m.asks]

/-- The market at address `k` is in state `s`: every account loads as the part of `s` that belongs there. -/
structure Rep (c : Chain) (k : Nat) (s : State conc) : Prop where
  market : loadMarketBytes (c.accs k).owned (c.accs k).data true = .ok s.mkt
  own : s.mkt.ownAddress = k
  reqQ : ∃ n, loadReqQBytes (c.accs s.mkt.reqQ).data = .ok (0, s.reqCount, s.seq, n)
  eventQ : loadEventQBytes (c.accs s.mkt.eventQ).data = .ok s.q
  asks : loadBookBytes .ask (c.accs s.mkt.asks).data = .ok s.asks
  bids : s.mkt.bids ≠ s.mkt.asks → loadBookBytes .bid (c.accs s.mkt.bids).data = .ok s.bids
  same : s.mkt.bids = s.mkt.asks → s.bids = s.asks
  owned : ∀ a ∈ s.mkt.own, (c.accs a).owned = true
  oos : ∀ a, ooAt s.oos a = ooOf k (c.accs a)
  toks : s.toks = c.toks

/-- The flags words of the accounts of a market. -/
structure Words (c : Chain) (k : Nat) (m : Market) : Prop where
  market : flagsWord (c.accs k).data ∈ kindFlags .market
  reqQ : flagsWord (c.accs m.reqQ).data = 9
  eventQ : flagsWord (c.accs m.eventQ).data = 17
  asks : flagsWord (c.accs m.asks).data = 65
  bids : m.bids ≠ m.asks → flagsWord (c.accs m.bids).data = 33

theorem Rep.words {c : Chain} {k : Nat} {s : State conc} (h : Rep c k s) : Words c k s.mkt := by
  refine ⟨market_flags_word h.market, ?_, ?_, book_flags h.asks, fun hn => book_flags (h.bids hn)⟩
  · obtain ⟨n, h⟩ := h.reqQ
    simpa [kindFlags] using loads_flags (k := .requests) ⟨_, h⟩
  · simpa [kindFlags] using loads_flags (k := .events) ⟨_, h.eventQ⟩

/-- The accounts of a market are distinct, but for the two sides of the book. -/
structure Apart (k : Nat) (m : Market) : Prop where
  kr : m.reqQ ≠ k
  ke : m.eventQ ≠ k
  ka : m.asks ≠ k
  kb : m.bids ≠ k
  er : m.eventQ ≠ m.reqQ
  ar : m.asks ≠ m.reqQ
  ae : m.asks ≠ m.eventQ
  br : m.bids ≠ m.reqQ
  be : m.bids ≠ m.eventQ

theorem Words.apart {c : Chain} {k : Nat} {m : Market} (h : Words c k m) : Apart k m := by
  obtain ⟨h1, h2, h3, h4, h5⟩ := h
  simp only [kindFlags, List.mem_cons, List.not_mem_nil, or_false] at h1
  have key : ∀ {a b : Nat}, flagsWord (c.accs a).data ≠ flagsWord (c.accs b).data → a ≠ b := by
    rintro a b hh rfl; exact hh rfl
  have kr : m.reqQ ≠ k := key (by omega)
  have ke : m.eventQ ≠ k := key (by omega)
  have ka : m.asks ≠ k := key (by omega)
  have ar : m.asks ≠ m.reqQ := key (by omega)
  have ae : m.asks ≠ m.eventQ := key (by omega)
  refine ⟨kr, ke, ka, ?_, key (by omega), ar, ae, ?_, ?_⟩
  · by_cases hb : m.bids = m.asks
    · rw [hb]; exact ka
    · exact key (by have := h5 hb; omega)
  · by_cases hb : m.bids = m.asks
    · rw [hb]; exact ar
    · exact key (by have := h5 hb; omega)
  · by_cases hb : m.bids = m.asks
    · rw [hb]; exact ae
    · exact key (by have := h5 hb; omega)

/-- None of the accounts of a market has the flags word of a blank or an open-orders account; only the market's
own account has that of a market. -/
theorem Words.own {c : Chain} {k : Nat} {m : Market} (h : Words c k m) (hk : m.ownAddress = k) {a : Nat} (ha : a ∈ m.own) :
    flagsWord (c.accs a).data ≠ 0 ∧ flagsWord (c.accs a).data ≠ 5 ∧ flagsWord (c.accs a).data ≠ 256 ∧
      (flagsWord (c.accs a).data ∈ kindFlags .market → a = k) := by
  obtain ⟨h1, h2, h3, h4, h5⟩ := h
  simp only [Market.own, List.mem_cons, List.not_mem_nil, or_false, hk] at ha
  simp only [kindFlags, List.mem_cons, List.not_mem_nil, or_false] at h1 ⊢
  rcases ha with rfl | rfl | rfl | rfl | rfl
  · exact ⟨by omega, by omega, by omega, fun _ => rfl⟩
  · refine ⟨by omega, by omega, by omega, fun _ => by omega⟩
  · refine ⟨by omega, by omega, by omega, fun _ => by omega⟩
  · by_cases hb : m.bids = m.asks
    · rw [hb]; refine ⟨by omega, by omega, by omega, fun _ => by omega⟩
    · have := h5 hb; refine ⟨by omega, by omega, by omega, fun _ => by omega⟩
  · refine ⟨by omega, by omega, by omega, fun _ => by omega⟩

/-- The open-orders accounts among `keys`, decoded. -/
def loadedOos (c : Chain) (k : Nat) (keys : List Nat) : List (Nat × OpenOrders) :=
  keys.filterMap fun a => (ooOf k (c.accs a)).map (a, ·)

theorem Rep.load {c : Chain} {k : Nat} {s : State conc} (h : Rep c k s) (keys : List Nat) :
    loadState c k keys = .ok { s with oos := loadedOos c k keys } := by
  obtain ⟨h1, h2, ⟨n, h3⟩, h4, h5, h6, h7, _, _, h8⟩ := h
  unfold loadState
  rw [h1]
  simp only [bind, Except.bind]
  rw [h3]
  simp only
  rw [h4]
  simp only
  rw [h5]
  simp only
  by_cases hb : s.mkt.bids = s.mkt.asks
  · rw [if_pos hb]
    simp only [pure, Except.pure, loadedOos, h2, ← h7 hb, ← h8]
  · rw [if_neg hb, h6 hb]
    simp only [pure, Except.pure, loadedOos, h2, ← h8]

theorem Rep.near {c : Chain} {k : Nat} {s : State conc} (h : Rep c k s) (keys : List Nat) :
    Near (· ∈ keys) s { s with oos := loadedOos c k keys } := by
  refine ⟨rfl, ?_⟩
  intro a ha
  show ooAt (loadedOos c k keys) a = _
  unfold loadedOos
  rw [ooAt_filterMap (fun a => ooOf k (c.accs a)), if_pos ha, h.oos]

/-- Storing depends only on the named open-orders accounts. -/
theorem store_near {c : Chain} {k : Nat} {s t s' t' : State conc} {keys : List Nat} (h : Near (· ∈ keys) s t)
    (h' : Near (· ∈ keys) s' t') : storeState c k t t' keys = storeState c k s s' keys := by
  obtain ⟨h1, h2⟩ := h
  obtain ⟨h3, h4⟩ := h'
  have e : ∀ a d, putData k t t' keys a d = putData k s s' keys a d := by
    intro a d
    have q1 : t.mkt = s.mkt := by rw [h1]
    have q2 : t'.mkt = s'.mkt := by rw [h3]
    have q3 : t.seq = s.seq := by rw [h1]
    have q4 : t'.seq = s'.seq := by rw [h3]
    have q5 : t.q = s.q := by rw [h1]
    have q6 : t'.q = s'.q := by rw [h3]
    have q7 : t.asks = s.asks := by rw [h1]
    have q8 : t'.asks = s'.asks := by rw [h3]
    have q9 : t.bids = s.bids := by rw [h1]
    have q10 : t'.bids = s'.bids := by rw [h3]
    unfold putData
    by_cases ha : a ∈ keys
    · simp only [q1, q2, q3, q4, q5, q6, q7, q8, q9, q10, h2 a ha, h4 a ha]
    · simp only [q1, q2, q3, q4, q5, q6, q7, q8, q9, q10, if_neg ha]
  unfold storeState
  simp only [e]
  rw [h3]

/-- Bytes are left alone or written with padding around. -/
theorem put_padded (k : Nat) (s s' : State conc) (keys : List Nat) (a : Nat) (d : List UInt8) :
    putData k s s' keys a d = d ∨ ∃ b, putData k s s' keys a d = padded b := by
  unfold putData
  repeat' split
  all_goals first
    | exact .inl rfl
    | exact .inr ⟨_, rfl⟩

/-- Accounts that are not the market's own: only open-orders accounts named are written. -/
theorem put_other {k : Nat} {s s' : State conc} {keys : List Nat} {a : Nat} {d : List UInt8}
    (hk : s.mkt.ownAddress = k) (ha : a ∉ s.mkt.own) :
    putData k s s' keys a d = d ∨ ∃ o, a ∈ keys ∧ ooAt s'.oos a = some o ∧ ooAt s.oos a ≠ some o ∧
      putData k s s' keys a d = o.bytes k := by
  simp only [Market.own, List.mem_cons, List.not_mem_nil, or_false, not_or, hk] at ha
  obtain ⟨h1, h2, h3, h4, h5⟩ := ha
  unfold putData
  rw [if_neg h1, if_neg h2, if_neg h3, if_neg h5, if_neg h4]
  split
  · rename_i hm
    split
    · rename_i o ho
      split
      · exact .inl rfl
      · rename_i hn
        exact .inr ⟨o, hm, ho, hn, by rw [hk]⟩
    · exact .inl rfl
  · exact .inl rfl

/-- What an instruction did to a market, as far as storing is concerned. -/
structure Updates (s s' : State conc) : Prop where
  cfg : s'.mkt.config = s.mkt.config
  perm : s'.mkt.permissioned = s.mkt.permissioned
  fits : MarketFits s'.mkt
  flags : checkMarketFlags s'.mkt.flags true = .ok ()
  seq : s'.seq < W64
  count : s.reqCount = 0 ∧ s'.reqCount = 0
  q : QueueFit s.q.buf.length s'.q
  bids : SlabFit s.bids.nodes.length s'.bids
  asks : SlabFit s.asks.nodes.length s'.asks
  same : s.mkt.bids = s.mkt.asks → s'.bids = s'.asks

/-- The market's own accounts load as the new state and keep their sizes. -/
theorem store_own {c : Chain} {k : Nat} {s s' : State conc} (h : Rep c k s) (hm : Updates s s') (keys : List Nat) :
    loadMarketBytes ((storeState c k s s' keys).accs k).owned ((storeState c k s s' keys).accs k).data true = .ok s'.mkt ∧
    (∃ n, loadReqQBytes ((storeState c k s s' keys).accs s.mkt.reqQ).data = .ok (0, s'.reqCount, s'.seq, n)) ∧
    loadEventQBytes ((storeState c k s s' keys).accs s.mkt.eventQ).data = .ok s'.q ∧
    loadBookBytes .ask ((storeState c k s s' keys).accs s.mkt.asks).data = .ok s'.asks ∧
    (s.mkt.bids ≠ s.mkt.asks → loadBookBytes .bid ((storeState c k s s' keys).accs s.mkt.bids).data = .ok s'.bids) ∧
    ∀ a ∈ s.mkt.own, ((storeState c k s s' keys).accs a).data.length = (c.accs a).data.length := by
  have w := h.words.apart
  obtain ⟨h1, h2, ⟨n, h3⟩, h4, h5, h6, h7, ho, _, h8⟩ := h
  obtain ⟨hfl, hchk, hown, hlen⟩ := market_flags_eq h1
  have ek : ((storeState c k s s' keys).accs k).data = if s'.mkt = s.mkt then (c.accs k).data else s'.mkt.bytes := by
    simp [storeState, putData]
  have er : ((storeState c k s s' keys).accs s.mkt.reqQ).data =
      if s'.seq = s.seq then (c.accs s.mkt.reqQ).data else putSeq (c.accs s.mkt.reqQ).data s'.seq := by
    simp [storeState, putData, w.kr]
  have ee : ((storeState c k s s' keys).accs s.mkt.eventQ).data = if s'.q = s.q then (c.accs s.mkt.eventQ).data else
      eventQBytes s'.q ((middle (c.accs s.mkt.eventQ).data).drop (32 + 88 * s.q.buf.length)) := by
    simp [storeState, putData, w.ke, w.er]
  have ea : ((storeState c k s s' keys).accs s.mkt.asks).data = if s'.asks = s.asks then (c.accs s.mkt.asks).data else
      bookBytes .ask s'.asks ((middle (c.accs s.mkt.asks).data).drop (40 + 72 * s.asks.nodes.length)) := by
    simp [storeState, putData, w.ka, w.ar, w.ae]
  have eb : s.mkt.bids ≠ s.mkt.asks → ((storeState c k s s' keys).accs s.mkt.bids).data =
      if s'.bids = s.bids then (c.accs s.mkt.bids).data else
      bookBytes .bid s'.bids ((middle (c.accs s.mkt.bids).data).drop (40 + 72 * s.bids.nodes.length)) := by
    intro hne
    simp [storeState, putData, w.kb, w.br, w.be, hne]
  have p1 := put_seq h3 (by decide) (by rw [hm.count.1]; decide) hm.seq
  have p2 := put_event h4 hm.q.len.1.symm hm.q
  have p3 := put_book h5 hm.asks.len.1.symm hm.asks
  have p4 := fun hne => put_book (h6 hne) hm.bids.len.1.symm hm.bids
  have lm : ((storeState c k s s' keys).accs k).data.length = (c.accs k).data.length := by
    rw [ek]; split
    · rfl
    · rw [market_bytes_length, hlen, hm.perm]
  have lr : ((storeState c k s s' keys).accs s.mkt.reqQ).data.length = (c.accs s.mkt.reqQ).data.length := by
    rw [er]; split
    · rfl
    · exact p1.2
  have le : ((storeState c k s s' keys).accs s.mkt.eventQ).data.length = (c.accs s.mkt.eventQ).data.length := by
    rw [ee]; split
    · rfl
    · exact p2.2
  have la : ((storeState c k s s' keys).accs s.mkt.asks).data.length = (c.accs s.mkt.asks).data.length := by
    rw [ea]; split
    · rfl
    · exact p3.2
  refine ⟨?_, ⟨n, ?_⟩, ?_, ?_, ?_, ?_⟩
  · rw [ek]
    show loadMarketBytes (c.accs k).owned _ true = _
    split
    · rename_i e; rw [e]; exact h1
    · rw [hown, market_bytes _ hm.fits, hm.flags]; rfl
  · rw [er]
    split
    · rename_i e; rw [h3, e, hm.count.1, hm.count.2]
    · rw [p1.1, hm.count.1, hm.count.2]
  · rw [ee]
    split
    · rename_i e; rw [h4, e]
    · exact p2.1
  · rw [ea]
    split
    · rename_i e; rw [h5, e]
    · exact p3.1
  · intro hne
    rw [eb hne]
    split
    · rename_i e; rw [h6 hne, e]
    · exact (p4 hne).1
  · intro a ha
    simp only [Market.own, List.mem_cons, List.not_mem_nil, or_false, h2] at ha
    rcases ha with rfl | rfl | rfl | rfl | rfl
    · exact lm
    · exact lr
    · exact le
    · by_cases hb : s.mkt.bids = s.mkt.asks
      · rw [hb]; exact la
      · rw [eb hb]; split
        · rfl
        · exact (p4 hb).2
    · exact la

/-- Open-orders accounts of the new state: they fit, were blank or open-orders accounts of the market before, are
among the accounts named if they changed, and none is lost. -/
structure Orders (c : Chain) (k : Nat) (keys : List Nat) (s s' : State conc) : Prop where
  fit : ∀ a o, ooAt s'.oos a = some o → OoFit o ∧ (c.accs a).owned = true ∧
    ((c.accs a).data = zeros 3228 ∨ ∃ o, ooOf k (c.accs a) = some o)
  frame : ∀ a, a ∉ keys → ooAt s'.oos a = ooAt s.oos a
  kept : ∀ a, ooAt s'.oos a = none → ooAt s.oos a = none

theorem Orders.word {c : Chain} {k : Nat} {keys : List Nat} {s s' : State conc} (h : Orders c k keys s s') {a : Nat}
    {o : OpenOrders} (ho : ooAt s'.oos a = some o) : flagsWord (c.accs a).data = 0 ∨ flagsWord (c.accs a).data = 5 ∨
      flagsWord (c.accs a).data = 256 := by
  rcases (h.fit a o ho).2.2 with e | ⟨_, e⟩
  · rw [e]; exact .inl (flagsWord_zeros _)
  · exact .inr (ooOf_word e)

theorem Orders.length {c : Chain} {k : Nat} {keys : List Nat} {s s' : State conc} (h : Orders c k keys s s') {a : Nat}
    {o : OpenOrders} (ho : ooAt s'.oos a = some o) : (c.accs a).data.length = 3228 := by
  rcases (h.fit a o ho).2.2 with e | ⟨_, e⟩
  · rw [e]; exact zeros_length _
  · exact (ooOf_some e).2.1

theorem cfg_field {α : Type} (f : Market → α) (hf : ∀ m : Market, f m.config = f m) {m m' : Market}
    (h : m'.config = m.config) : f m' = f m := by rw [← hf m', h, hf m]

theorem own_eq {s s' : State conc} (h : Updates s s') : s'.mkt.own = s.mkt.own := cfg_field _ (fun _ => rfl) h.cfg

theorem Rep.nonzero {c : Chain} {k : Nat} {s : State conc} (h : Rep c k s) {a : Nat} (ha : a ∈ s.mkt.own) :
    flagsWord (c.accs a).data ≠ 0 ∧ flagsWord (c.accs a).data ≠ 5 ∧ flagsWord (c.accs a).data ≠ 256 ∧
      (flagsWord (c.accs a).data ∈ kindFlags .market → a = k) := h.words.own h.own ha

theorem store_words {c : Chain} {k : Nat} {s s' : State conc} (h : Rep c k s) (hm : Updates s s') (keys : List Nat) :
    Words (storeState c k s s' keys) k s'.mkt := by
  obtain ⟨h1, ⟨n, h2⟩, h3, h4, h5, _⟩ := store_own h hm keys
  have e1 : s'.mkt.reqQ = s.mkt.reqQ := cfg_field (·.reqQ) (fun _ => rfl) hm.cfg
  have e2 : s'.mkt.eventQ = s.mkt.eventQ := cfg_field (·.eventQ) (fun _ => rfl) hm.cfg
  have e3 : s'.mkt.asks = s.mkt.asks := cfg_field (·.asks) (fun _ => rfl) hm.cfg
  have e4 : s'.mkt.bids = s.mkt.bids := cfg_field (·.bids) (fun _ => rfl) hm.cfg
  refine ⟨market_flags_word h1, ?_, ?_, ?_, ?_⟩
  · rw [e1]; simpa [kindFlags] using loads_flags (k := .requests) ⟨_, h2⟩
  · rw [e2]; simpa [kindFlags] using loads_flags (k := .events) ⟨_, h3⟩
  · rw [e3]; exact book_flags h4
  · rw [e3, e4]; exact fun hn => book_flags (h5 hn)

/-- The chain after the instruction represents the new state. -/
theorem store_rep {c : Chain} {k : Nat} {s s' : State conc} (h : Rep c k s) (hm : Updates s s') (hk : k < 256 ^ 32)
    {keys : List Nat} (ho : Orders c k keys s s') : Rep (storeState c k s s' keys) k s' := by
  obtain ⟨h1, ⟨n, h2⟩, h3, h4, h5, _⟩ := store_own h hm keys
  have e0 : s'.mkt.ownAddress = s.mkt.ownAddress := cfg_field (·.ownAddress) (fun _ => rfl) hm.cfg
  have e1 : s'.mkt.reqQ = s.mkt.reqQ := cfg_field (·.reqQ) (fun _ => rfl) hm.cfg
  have e2 : s'.mkt.eventQ = s.mkt.eventQ := cfg_field (·.eventQ) (fun _ => rfl) hm.cfg
  have e3 : s'.mkt.asks = s.mkt.asks := cfg_field (·.asks) (fun _ => rfl) hm.cfg
  have e4 : s'.mkt.bids = s.mkt.bids := cfg_field (·.bids) (fun _ => rfl) hm.cfg
  refine ⟨h1, e0.trans h.own, ⟨n, ?_⟩, ?_, ?_, ?_, ?_, ?_, ?_, rfl⟩
  · rw [e1]; exact h2
  · rw [e2]; exact h3
  · rw [e3]; exact h4
  · rw [e3, e4]; exact h5
  · rw [e3, e4]; exact hm.same
  · rw [own_eq hm]; exact h.owned
  · intro a
    by_cases ha : a ∈ s.mkt.own
    · have w := (store_words h hm keys).own (e0.trans h.own) (by rw [own_eq hm]; exact ha)
      rw [ooOf_none_word w.2.1 w.2.2.1]
      cases hs : ooAt s'.oos a with
      | none => rfl
      | some o =>
        have := h.nonzero ha
        have := ho.word hs
        omega
    · rcases put_other (s' := s') (keys := keys) (d := (c.accs a).data) h.own ha with e | ⟨o, ha', hs, hn, e⟩
      · have e' : (storeState c k s s' keys).accs a = c.accs a := by
          unfold storeState; simp only; rw [e]
        rw [e', ← h.oos]
        by_cases ha' : a ∈ keys
        · cases hs : ooAt s'.oos a with
          | none => exact (ho.kept a hs).symm
          | some o =>
            by_cases hso : ooAt s.oos a = some o
            · exact hso.symm
            · exfalso
              have hb : putData k s s' keys a (c.accs a).data = o.bytes k := by
                simp only [Market.own, List.mem_cons, List.not_mem_nil, or_false, not_or, h.own] at ha
                obtain ⟨g1, g2, g3, g4, g5⟩ := ha
                unfold putData
                rw [if_neg g1, if_neg g2, if_neg g3, if_neg g5, if_neg g4, if_pos ha', hs]
                simp only
                rw [if_neg hso, h.own]
              have := ooOf_bytes (k' := k) ((ho.fit a o hs).1.orders hk) (ho.fit a o hs).2.1 (e.symm.trans hb)
              rw [if_pos rfl, ← h.oos] at this
              exact hso this
        · exact ho.frame a ha'
      · rw [ooOf_bytes (k := k) (a := (storeState c k s s' keys).accs a) ((ho.fit a o hs).1.orders hk) (ho.fit a o hs).2.1 e, if_pos rfl, hs]

theorem store_lengths {c : Chain} {k : Nat} {s s' : State conc} (h : Rep c k s) (hm : Updates s s') (hk : k < 256 ^ 32)
    {keys : List Nat} (ho : Orders c k keys s s') (a : Nat) :
    ((storeState c k s s' keys).accs a).data.length = (c.accs a).data.length := by
  by_cases ha : a ∈ s.mkt.own
  · exact (store_own h hm keys).2.2.2.2.2 a ha
  · rcases put_other (s' := s') (keys := keys) (d := (c.accs a).data) h.own ha with e | ⟨o, ha', hs, hn, e⟩
    · unfold storeState; simp only; rw [e]
    · have e' : ((storeState c k s s' keys).accs a).data = o.bytes k := e
      rw [e', oo_bytes_length ((ho.fit a o hs).1.orders hk), ho.length hs]

/-- Accounts of other markets, of either kind, are left alone. -/
theorem store_frame {c : Chain} {k k' : Nat} {s s' u : State conc} (h : Rep c k s) (hu : Rep c k' u) (hne : k' ≠ k)
    (hd : ∀ a, a ∈ u.mkt.own → a ∉ s.mkt.own) {keys : List Nat} (ho : Orders c k keys s s') {a : Nat}
    (ha : a ∈ u.mkt.own ∨ ∃ o, ooOf k' (c.accs a) = some o) : (storeState c k s s' keys).accs a = c.accs a := by
  have hn : a ∉ s.mkt.own := by
    rcases ha with ha | ⟨o, ha⟩
    · exact hd a ha
    · intro hs
      have := h.nonzero hs
      have := ooOf_word ha
      omega
  rcases put_other (s' := s') (keys := keys) (d := (c.accs a).data) h.own hn with e | ⟨o, ha', hs, hn, e⟩
  · unfold storeState; simp only; rw [e]
  · exfalso
    rcases ha with ha | ⟨o', ha⟩
    · have := hu.nonzero ha
      have := ho.word hs
      omega
    · rcases (ho.fit a o hs).2.2 with e | ⟨o'', e⟩
      · have := ooOf_word ha
        rw [e, flagsWord_zeros] at this
        omega
      · exact hne (ooOf_unique ha e)

/-- The other markets are as before, with the new token ledger. -/
theorem store_rep_other {c : Chain} {k k' : Nat} {s s' u : State conc} (h : Rep c k s) (hm : Updates s s')
    (hk : k < 256 ^ 32) (hu : Rep c k' u) (hne : k' ≠ k) (hd : ∀ a, a ∈ u.mkt.own → a ∉ s.mkt.own) {keys : List Nat}
    (ho : Orders c k keys s s') : Rep (storeState c k s s' keys) k' { u with toks := s'.toks } := by
  have fr : ∀ a, a ∈ u.mkt.own → (storeState c k s s' keys).accs a = c.accs a := fun a ha => store_frame h hu hne hd ho (.inl ha)
  have oo : ∀ a, ooOf k' ((storeState c k s s' keys).accs a) = ooOf k' (c.accs a) := by
    intro a
    by_cases ha : a ∈ s.mkt.own
    · have w := (store_words h hm keys).own ((cfg_field (·.ownAddress) (fun _ => rfl) hm.cfg).trans h.own) (by rw [own_eq hm]; exact ha)
      have w' := h.nonzero ha
      rw [ooOf_none_word w.2.1 w.2.2.1, ooOf_none_word w'.2.1 w'.2.2.1]
    · rcases put_other (s' := s') (keys := keys) (d := (c.accs a).data) h.own ha with e | ⟨o, ha', hs, hn, e⟩
      · have e' : (storeState c k s s' keys).accs a = c.accs a := by
          unfold storeState; simp only; rw [e]
        rw [e']
      · rw [ooOf_bytes (k := k) (a := (storeState c k s s' keys).accs a) ((ho.fit a o hs).1.orders hk) (ho.fit a o hs).2.1 e, if_neg hne]
        rcases (ho.fit a o hs).2.2 with e | ⟨o'', e⟩
        · rw [ooOf_none_word] <;> rw [e, flagsWord_zeros] <;> omega
        · cases hx : ooOf k' (c.accs a) with
          | none => rfl
          | some y => exact absurd (ooOf_unique hx e) hne
  obtain ⟨h1, h2, h3, h4, h5, h6, h7, h8, h9, h10⟩ := hu
  have m0 : k' ∈ u.mkt.own := by simp [Market.own, h2]
  have m1 : u.mkt.reqQ ∈ u.mkt.own := by simp [Market.own]
  have m2 : u.mkt.eventQ ∈ u.mkt.own := by simp [Market.own]
  have m3 : u.mkt.bids ∈ u.mkt.own := by simp [Market.own]
  have m4 : u.mkt.asks ∈ u.mkt.own := by simp [Market.own]
  refine ⟨?_, h2, ?_, ?_, ?_, ?_, h7, h8, ?_, rfl⟩
  · rw [fr _ m0]; exact h1
  · show ∃ n, loadReqQBytes ((storeState c k s s' keys).accs u.mkt.reqQ).data = _
    rw [fr _ m1]; exact h3
  · show loadEventQBytes ((storeState c k s s' keys).accs u.mkt.eventQ).data = _
    rw [fr _ m2]; exact h4
  · show loadBookBytes _ ((storeState c k s s' keys).accs u.mkt.asks).data = _
    rw [fr _ m4]; exact h5
  · intro hn
    show loadBookBytes _ ((storeState c k s s' keys).accs u.mkt.bids).data = _
    rw [fr _ m3]; exact h6 hn
  · intro a
    show ooAt u.oos a = _
    rw [oo, h9]

end Serum
