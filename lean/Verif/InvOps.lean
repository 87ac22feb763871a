import Verif.Inv

/-
Preservation of the invariant by cancelling, consuming events, settling, sweeping, closing and changes of
the token ledger.
-/

namespace Serum

/-- The accounting identities after one account, the books, the queue and the market changed. -/
theorem Money.step {m m' : Market} {oos bids asks evs bids' asks' evs'} (h : Money m oos bids asks evs)
    {a : Nat} {o o' : OpenOrders} (ho : ooAt oos a = some o)
    (l1 : m'.coinLot = m.coinLot) (l2 : m'.pcLot = m.pcLot)
    (hc : m'.coinDeposits + o.coinFree + bookLock .ask m every asks + evSum (EventView.free .ask) every evs =
      m.coinDeposits + o'.coinFree + bookLock .ask m every asks' + evSum (EventView.free .ask) every evs')
    (hp : m'.pcDeposits + o.pcFree + bookLock .bid m every bids + evSum (EventView.free .bid) every evs =
      m.pcDeposits + o'.pcFree + bookLock .bid m every bids' + evSum (EventView.free .bid) every evs')
    (hct : o'.coinTotal = (o'.coinFree + bookLock .ask m (only a) asks' +
      evSum (EventView.lock .ask) (only a) evs') % W64)
    (hpt : o'.pcTotal = (o'.pcFree + bookLock .bid m (only a) bids' +
      evSum (EventView.lock .bid) (only a) evs') % W64)
    (hoc : ∀ b, b ≠ a → bookLock .ask m (only b) asks' + evSum (EventView.lock .ask) (only b) evs' =
      bookLock .ask m (only b) asks + evSum (EventView.lock .ask) (only b) evs)
    (hop : ∀ b, b ≠ a → bookLock .bid m (only b) bids' + evSum (EventView.lock .bid) (only b) evs' =
      bookLock .bid m (only b) bids + evSum (EventView.lock .bid) (only b) evs)
    (hr : o'.rebates + evSum EventView.rebate every evs' + m.referrerRebates ≤
      o.rebates + evSum EventView.rebate every evs + m'.referrerRebates) :
    Money m' (setOo oos a o') bids' asks' evs' := by
  obtain ⟨h1, h2, h3, h4, h5⟩ := h
  have s1 := accSum_setOo (g := (·.coinFree)) (o := o') ho
  have s2 := accSum_setOo (g := (·.pcFree)) (o := o') ho
  have s3 := accSum_setOo (g := (·.rebates)) (o := o') ho
  refine ⟨?_, ?_, ?_, ?_, ?_⟩
  · rw [bookLock_congr l1 l2]; omega
  · rw [bookLock_congr l1 l2]; omega
  · intro b p hb
    rw [bookLock_congr l1 l2]
    rw [ooAt_setOo] at hb
    split at hb
    · rename_i e
      cases hb
      subst e
      exact hct
    · rename_i e
      rw [h3 b p hb]
      have := hoc b e
      congr 1
      omega
  · intro b p hb
    rw [bookLock_congr l1 l2]
    rw [ooAt_setOo] at hb
    split at hb
    · rename_i e
      cases hb
      subst e
      exact hpt
    · rename_i e
      rw [h4 b p hb]
      have := hop b e
      congr 1
      omega
  · omega

/-! ### Consuming -/

theorem Inv.deposits_lt {vs m seq oos l bids asks evs} (h : Inv vs m seq oos l bids asks evs) :
    m.coinDeposits < W64 ∧ m.pcDeposits + m.pcFees + m.referrerRebates < W64 := by
  obtain ⟨t1, e1, _⟩ := h.funds.coin
  obtain ⟨t2, e2, _⟩ := h.funds.pc
  have b1 := h.funds.solvent m.coinVault
  have b2 := h.funds.solvent m.pcVault
  have a1 := h.funds.amounts _ _ e1
  have a2 := h.funds.amounts _ _ e2
  unfold owed bal at b1 b2
  rw [e1] at b1
  rw [e2] at b2
  simp only [if_true] at b1 b2
  constructor <;> omega

/-- A shape change confined to one account, whose slots may only be freed. -/
theorem Shape.consume {m seq oos bids asks v evs} (h : Shape m seq oos bids asks (v :: evs))
    {o o' : OpenOrders} (ho : ooAt oos v.owner = some o) (ha : Applied o o' v) :
    Shape m seq (setOo oos v.owner o') bids asks evs := by
  have hin : v.owner ∈ oos.map (·.1) := List.mem_map_of_mem (f := (·.1)) (ooAt_mem ho)
  have hso : ∀ i, slotsOf oos v.owner i = o.slot i := by intro i; unfold slotsOf; rw [ho]
  have hsub : ∀ b i c, slotsOf (setOo oos v.owner o') b i = some c → slotsOf oos b i = some c := by
    intro b i c hb
    rw [slotsOf_setOo] at hb
    split at hb
    · rename_i e
      subst e
      rw [hso]
      cases hf : v.final with
      | false => rw [ha.keep hf] at hb; exact hb
      | true =>
        rw [ha.freed hf] at hb
        split at hb
        · cases hb
        · exact hb
    · exact hb
  refine ⟨h.mkt, h.book, ?_, setOo_nodup h.keys _ _, ?_, ?_, ?_, ?_, h.noCross⟩
  · cases hf : v.final with
    | false =>
      refine (h.slots.pop hf).congr ?_
      intro b i
      rw [slotsOf_setOo]
      split
      · rename_i e
        subst e
        rw [hso, ha.keep hf]
      · rfl
    | true =>
      refine h.slots.popFinal hf ?_
      intro b i
      rw [slotsOf_setOo]
      by_cases e : b = v.owner
      · subst e
        simp only [if_true, true_and, ha.freed hf, hso]
      · simp [e]
  · rw [setOo_keys, if_pos hin]; exact h.zero
  · intro b p hp
    rw [ooAt_setOo] at hp
    split at hp
    · cases hp; exact ha.ok
    · exact h.accts b p hp
  · intro b i sd id hb
    exact h.ids b i sd id (hsub _ _ _ hb)
  · intro b i sd id c j sd' h1 h2
    exact h.uniq b i sd id c j sd' (hsub _ _ _ h1) (hsub _ _ _ h2)

/-- Consuming the event at the head of the queue. -/
theorem Inv.consume {vs m seq oos l bids asks v evs} (h : Inv vs m seq oos l bids asks (v :: evs))
    {o o' : OpenOrders} (ho : ooAt oos v.owner = some o) (ha : Applied o o' v) :
    Inv vs m seq (setOo oos v.owner o') l bids asks evs := by
  have hd := h.deposits_lt
  have hm := h.money
  have c1 := hm.coin
  have c2 := hm.pc
  have c3 := hm.rebates
  simp only [evSum_cons, every, if_true] at c1 c2 c3
  have g1 := accSum_ge (g := (·.coinFree)) ho
  have g2 := accSum_ge (g := (·.pcFree)) ho
  have g3 := accSum_ge (g := (·.rebates)) ho
  have f1 : o'.coinFree = o.coinFree + v.free .ask := by
    rw [ha.coinFree]; exact Nat.mod_eq_of_lt (by omega)
  have f2 : o'.pcFree = o.pcFree + v.free .bid := by
    rw [ha.pcFree]; exact Nat.mod_eq_of_lt (by omega)
  have f3 : o'.rebates = o.rebates + v.rebate := by
    rw [ha.rebates]; exact Nat.mod_eq_of_lt (by omega)
  have t1 := hm.coinTot _ _ ho
  have t2 := hm.pcTot _ _ ho
  simp only [evSum_cons, only, beq_self_eq_true, if_true] at t1 t2
  have u1 := ha.coinTotal
  have u2 := ha.pcTotal
  have k1 := ha.ok.coinTotal
  have k2 := ha.ok.pcTotal
  refine ⟨h.shape.consume ho ha, ?_, h.funds⟩
  refine hm.step ho rfl rfl ?_ ?_ ?_ ?_ ?_ ?_ ?_
  · simp only [evSum_cons, every, if_true]; omega
  · simp only [evSum_cons, every, if_true]; omega
  · generalize bookLock .ask m (only v.owner) asks = X at *
    generalize evSum (EventView.lock .ask) (only v.owner) evs = Y at *
    unfold W64 at *; omega
  · generalize bookLock .bid m (only v.owner) bids = X at *
    generalize evSum (EventView.lock .bid) (only v.owner) evs = Y at *
    unfold W64 at *; omega
  · intro b hb
    have : (v.owner == b) = false := by simp; exact fun e => hb e.symm
    simp [evSum_cons, only, this]
  · intro b hb
    have : (v.owner == b) = false := by simp; exact fun e => hb e.symm
    simp [evSum_cons, only, this]
  · simp only [evSum_cons, every, if_true]; omega

/-! ### Cancelling -/

/-- The book without a key. -/
def dropKey (k : Nat) (L : List Leaf) : List Leaf := L.filter (fun l => l.key != k)

theorem dropKey_perm {L : List Leaf} (hs : L.Pairwise (fun a b => a.key < b.key)) {l : Leaf} (hl : l ∈ L) :
    L.Perm (l :: dropKey l.key L) := by
  induction L with
  | nil => cases hl
  | cons x xs ih =>
    rw [List.pairwise_cons] at hs
    unfold dropKey at *
    rcases List.mem_cons.1 hl with rfl | hl
    · rw [List.filter_cons_of_neg (by simp)]
      have : xs.filter (fun y => y.key != l.key) = xs := by
        rw [List.filter_eq_self]
        intro y hy
        have := hs.1 y hy
        simp; omega
      rw [this]
    · have := hs.1 l hl
      rw [List.filter_cons_of_pos (by simp; omega)]
      exact ((ih hs.2 hl).cons x).trans (List.Perm.swap _ _ _)

theorem dropKey_sub {k : Nat} {L : List Leaf} {l : Leaf} (h : l ∈ dropKey k L) : l ∈ L :=
  (List.mem_filter.1 h).1

/-- Both books after dropping a key from one. -/
def dropBids (sd : Side) (k : Nat) (bids : List Leaf) : List Leaf :=
  match sd with | .bid => dropKey k bids | .ask => bids
def dropAsks (sd : Side) (k : Nat) (asks : List Leaf) : List Leaf :=
  match sd with | .bid => asks | .ask => dropKey k asks

theorem BookOk.drop {m bids asks} (h : BookOk m bids asks) (sd : Side) (k : Nat) :
    BookOk m (dropBids sd k bids) (dropAsks sd k asks) := by
  obtain ⟨a1, a2, a3, a4, a5, a6, a7, a8⟩ := h
  cases sd with
  | bid =>
    exact ⟨a1.filter _, a2, fun l hl => a3 l (dropKey_sub hl), a4, fun l hl => a5 l (dropKey_sub hl), a6,
      fun l hl => a7 l (dropKey_sub hl), a8⟩
  | ask =>
    exact ⟨a1, a2.filter _, a3, fun l hl => a4 l (dropKey_sub hl), a5, fun l hl => a6 l (dropKey_sub hl), a7,
      fun l hl => a8 l (dropKey_sub hl)⟩

/-- The leaves of one side. -/
def sideOf (sd : Side) (bids asks : List Leaf) : List Leaf := match sd with | .bid => bids | .ask => asks

theorem tagged_drop {m bids asks} (h : BookOk m bids asks) {sd : Side} {l : Leaf} (hl : l ∈ sideOf sd bids asks) :
    (tagged bids asks).Perm ((sd, l) :: tagged (dropBids sd l.key bids) (dropAsks sd l.key asks)) := by
  cases sd with
  | bid =>
    exact (tagged_perm (dropKey_perm h.bidSort hl) (List.Perm.refl asks)).trans
      (by simp [dropBids, dropAsks, tagged])
  | ask =>
    refine (tagged_perm (List.Perm.refl bids) (dropKey_perm h.askSort hl)).trans ?_
    simp only [dropBids, dropAsks, tagged, List.map_cons]
    exact List.perm_middle

/-- What unlocking an order is worth, as computed. -/
def unlockAmount (sd : Side) (m : Market) (l : Leaf) : Nat :=
  match sd with
  | .bid => wmul (wmul l.quantity l.price) m.pcLot
  | .ask => wmul l.quantity m.coinLot

/-- `n` becomes free. -/
def Unlocked (sd : Side) (o o' : OpenOrders) (n : Nat) : Prop :=
  match sd with
  | .bid => o' = { o with pcFree := o.pcFree + n } ∧ o.pcFree + n < W64 ∧ o.pcFree + n ≤ o.pcTotal
  | .ask => o' = { o with coinFree := o.coinFree + n } ∧ o.coinFree + n < W64 ∧ o.coinFree + n ≤ o.coinTotal

/-- What unlocking does. -/
theorem unlockLeaf_inv {m : Market} {l : Leaf} {sd : Side} {o o' : OpenOrders} {n : Nat}
    (h : unlockLeaf m l sd o = .ok (n, o')) :
    n = unlockAmount sd m l ∧ Unlocked sd o o' n := by
  cases sd with
  | bid =>
    unfold unlockLeaf at h
    simp only at h
    obtain ⟨p, hp, h⟩ := bind_ok h
    obtain ⟨w, hw, h⟩ := bind_ok h
    cases h
    unfold nzPrice at hp
    split at hp
    · cases hp
    · cases hp
      refine ⟨rfl, ?_⟩
      unfold OpenOrders.unlockPc at hw
      obtain ⟨x, hx, hw⟩ := bind_ok hw
      rw [unwrap_ok, checkedAdd_some] at hx
      obtain ⟨_, hc, hw⟩ := bind_ok hw
      rw [rustAssert_ok, decide_eq_true_eq] at hc
      cases hw
      obtain ⟨h1, rfl⟩ := hx
      exact ⟨rfl, h1, hc⟩
  | ask =>
    unfold unlockLeaf at h
    simp only at h
    obtain ⟨w, hw, h⟩ := bind_ok h
    cases h
    refine ⟨rfl, ?_⟩
    unfold OpenOrders.unlockCoin at hw
    obtain ⟨x, hx, hw⟩ := bind_ok hw
    rw [unwrap_ok, checkedAdd_some] at hx
    obtain ⟨_, hc, hw⟩ := bind_ok hw
    rw [rustAssert_ok, decide_eq_true_eq] at hc
    cases hw
    obtain ⟨h1, rfl⟩ := hx
    exact ⟨rfl, h1, hc⟩

theorem unlockLeaf_value {m : Market} {l : Leaf} {sd : Side} {o o' : OpenOrders} {n : Nat} {bids asks}
    (hb : BookOk m bids asks) (hl : l ∈ sideOf sd bids asks)
    (h : unlockLeaf m l sd o = .ok (n, o')) : n = lockedValue sd m l.price l.quantity := by
  obtain ⟨h1, _⟩ := unlockLeaf_inv h
  cases sd with
  | bid =>
    have h2 := hb.bidVal l hl
    have h3 := hb.bidPrice l hl
    have h4 : 0 < m.pcLot ∨ m.pcLot = 0 := by omega
    subst h1
    simp only [lockedValue, unlockAmount]
    rcases h4 with h4 | h4
    · have h5 : l.quantity * l.price < W64 :=
        Nat.lt_of_le_of_lt (Nat.le_mul_of_pos_right _ h4) h2
      rw [wmul_eq h5, wmul_eq h2]
    · rw [h4]; simp [wmul]
  | ask =>
    subst h1
    exact wmul_eq (hb.askVal l hl)

/-- Cancelling a resting order: the leaf leaves the book, a final event is queued, and the locked value
becomes free. -/
theorem Inv.cancel {vs m seq oos l bids asks evs} (h : Inv vs m seq oos l bids asks evs) {a : Nat}
    {o o' : OpenOrders} (ho : ooAt oos a = some o) {sd : Side} {lf : Leaf} (hl : lf ∈ sideOf sd bids asks)
    (hown : lf.owner = a) {n cid : Nat} (hu : unlockLeaf m lf sd o = .ok (n, o')) :
    Inv vs m seq (setOo oos a o') l (dropBids sd lf.key bids) (dropAsks sd lf.key asks)
      (evs ++ [.out sd false n 0 lf.key a lf.ownerSlot cid]) := by
  have hn := unlockLeaf_value h.shape.book hl hu
  obtain ⟨_, hw⟩ := unlockLeaf_inv hu
  have hok := h.shape.accts a o ho
  have hperm := tagged_drop h.shape.book hl
  have hs1 := h.shape.slots.perm hperm
  have hab : About (.out sd false n 0 lf.key a lf.ownerSlot cid) sd lf := ⟨hown.symm, rfl, rfl, rfl⟩
  have hs2 := hs1.leave hab (by simp [EventView.final])
  have hok' : OoOk o' ∧ (∀ i, o'.slot i = o.slot i) ∧ o'.rebates = o.rebates ∧ o'.coinTotal = o.coinTotal ∧
      o'.pcTotal = o.pcTotal := by
    obtain ⟨k1, k2, k3, k4, k5, k6, k7, k8⟩ := hok
    cases sd with
    | bid =>
      obtain ⟨rfl, b1, b2⟩ := hw
      exact ⟨⟨k1, k2, k3, k4, b1, k6, k7, k8⟩, fun i => rfl, rfl, rfl, rfl⟩
    | ask =>
      obtain ⟨rfl, b1, b2⟩ := hw
      exact ⟨⟨k1, k2, b1, k4, k5, k6, k7, k8⟩, fun i => rfl, rfl, rfl, rfl⟩
  obtain ⟨hok', hsl, hrb, hct, hpt⟩ := hok'
  have hsh := h.shape.update ho hok' hsl
  have hσ : ∀ b i, slotsOf (setOo oos a o') b i = slotsOf oos b i := by
    intro b i
    rw [slotsOf_setOo]
    split
    · rename_i hb
      subst hb
      rw [hsl]; unfold slotsOf; rw [ho]
    · rfl
  refine ⟨⟨hsh.mkt, h.shape.book.drop sd lf.key, hs2.congr hσ, hsh.keys, hsh.zero, hsh.accts, hsh.ids, hsh.uniq,
    ?_⟩, ?_, h.funds⟩
  · intro b hb k hk
    refine h.shape.noCross b ?_ k ?_
    · cases sd with
      | bid => exact dropKey_sub hb
      | ask => exact hb
    · cases sd with
      | bid => exact hk
      | ask => exact dropKey_sub hk
  · have t1 := h.money.coinTot a o ho
    have t2 := h.money.pcTot a o ho
    cases sd with
    | bid =>
      obtain ⟨rfl, b1, b2⟩ := hw
      have hp : ∀ P, bookLock .bid m P bids = leafLock .bid m P lf + bookLock .bid m P (dropKey lf.key bids) := by
        intro P
        rw [bookLock_perm (dropKey_perm h.shape.book.bidSort hl), bookLock_cons]
      refine h.money.step ho rfl rfl ?_ ?_ ?_ ?_ ?_ ?_ ?_
      · simp [EventView.free, dropAsks]
      · have := hp every
        simp only [leafLock, every, if_true, ← hn] at this
        simp only [dropBids, evSum_append, evSum_cons, evSum_nil, EventView.free]
        simp only [every] at *
        simp
        omega
      · simp only [dropAsks, evSum_append, evSum_cons, evSum_nil, EventView.lock]
        simp only [t1]; simp
      · have := hp (only a)
        simp only [leafLock, only, hown, beq_self_eq_true, if_true, ← hn] at this
        simp only [dropBids, evSum_append, evSum_cons, evSum_nil, EventView.lock]
        rw [t2]
        simp only [only] at *
        congr 1
        simp
        omega
      · intro b hb
        simp [dropAsks, EventView.lock]
      · intro b hb
        have := hp (only b)
        have hne : (a == b) = false := by simp; exact fun e => hb e.symm
        simp only [leafLock, only, hown, hne] at this
        simp [dropBids, EventView.lock, only, this]
      · simp [EventView.rebate]
    | ask =>
      obtain ⟨rfl, b1, b2⟩ := hw
      have hp : ∀ P, bookLock .ask m P asks = leafLock .ask m P lf + bookLock .ask m P (dropKey lf.key asks) := by
        intro P
        rw [bookLock_perm (dropKey_perm h.shape.book.askSort hl), bookLock_cons]
      refine h.money.step ho rfl rfl ?_ ?_ ?_ ?_ ?_ ?_ ?_
      · have := hp every
        simp only [leafLock, every, if_true, ← hn] at this
        simp only [dropAsks, evSum_append, evSum_cons, evSum_nil, EventView.free]
        simp only [every] at *
        simp
        omega
      · simp [EventView.free, dropBids]
      · have := hp (only a)
        simp only [leafLock, only, hown, beq_self_eq_true, if_true, ← hn] at this
        simp only [dropAsks, evSum_append, evSum_cons, evSum_nil, EventView.lock]
        rw [t1]
        simp only [only] at *
        congr 1
        simp
        omega
      · simp only [dropBids, evSum_append, evSum_cons, evSum_nil, EventView.lock]
        simp only [t2]; simp
      · intro b hb
        have := hp (only b)
        have hne : (a == b) = false := by simp; exact fun e => hb e.symm
        simp only [leafLock, only, hown, hne] at this
        simp [dropAsks, EventView.lock, only, this]
      · intro b hb
        simp [dropBids, EventView.lock]
      · simp [EventView.rebate]

/-! ### The token ledger -/

/-- What an SPL transfer does. -/
structure Moved (l l' : Ledger) (src dst auth n : Nat) : Prop where
  enough : n ≤ bal l src
  bal : ∀ a, bal l' a = if src = dst then bal l a else if a = dst then bal l a + n
    else if a = src then bal l a - n else bal l a
  amounts : (∀ a t, l a = some t → t.amount < W64) → ∀ a t, l' a = some t → t.amount < W64
  held : ∀ vs a, Held vs l a → Held vs l' a
  auth : ∀ vs, Held vs l src → auth = vs

theorem splTransfer_moved {l l' : Ledger} {src dst auth n : Nat}
    (h : splTransfer l src dst auth n = .ok l') : Moved l l' src dst auth n := by
  unfold splTransfer at h
  cases hs : l src with
  | none => rw [hs] at h; simp at h
  | some s =>
    cases hd : l dst with
    | none => rw [hs, hd] at h; simp at h
    | some d =>
      rw [hs, hd] at h
      simp only at h
      split at h
      · cases h
      split at h
      · cases h
      split at h
      · cases h
      rename_i h1 h2 h3
      have hauth : ∀ vs s', debitTok s auth n = .ok s' → Held vs l src → auth = vs := by
        rintro vs s' hdt ⟨t, e1, e2, e3, _⟩
        rw [hs] at e1
        cases e1
        unfold debitTok at hdt
        rw [if_neg (by rw [e3]; simp)] at hdt
        split at hdt
        · cases hdt
        · rename_i hx
          rw [← e2]; simp at hx; exact hx.symm
      cases hdt : debitTok s auth n with
      | error e => rw [hdt] at h; simp at h
      | ok s' =>
        rw [hdt] at h
        simp only at h
        have henough : n ≤ Serum.bal l src := by
          unfold Serum.bal; rw [hs]; simp at h2 ⊢; exact h2
        split at h
        · rename_i e
          cases h
          subst e
          exact ⟨henough, fun a => by simp, fun h => h, fun vs a h => h, fun vs hh => hauth vs s' hdt hh⟩
        · rename_i e
          split at h
          · cases h
          · rename_i hlt
            cases h
            have hs' : s'.amount = s.amount - n ∧ (s.delegate = none →
                s'.owner = s.owner ∧ s'.delegate = none ∧ s'.closeAuth = s.closeAuth) := by
              unfold debitTok at hdt
              split at hdt
              · rename_i hx
                split at hdt
                · cases hdt
                · cases hdt
                  refine ⟨rfl, fun hn => ?_⟩
                  rw [hn] at hx; cases hx
              · split at hdt
                · cases hdt
                · cases hdt
                  exact ⟨rfl, fun hn => ⟨rfl, hn, rfl⟩⟩
            refine ⟨henough, ?_, ?_, ?_, fun vs hh => hauth vs s' hdt hh⟩
            · intro a
              unfold Serum.bal
              simp only [if_neg e]
              by_cases ha : a = dst
              · subst ha; simp [hd]
              · by_cases ha' : a = src
                · subst ha'; simp [ha, hs, hs'.1]
                · simp [ha, ha']
            · intro hl a t ht
              split at ht
              · cases ht; simp at hlt ⊢; omega
              · split at ht
                · cases ht
                  have := hl _ _ hs
                  rw [hs'.1]; omega
                · exact hl a t ht
            · rintro vs a ⟨t, e1, e2, e3⟩
              unfold Held
              by_cases ha : a = dst
              · subst ha
                rw [hd] at e1
                cases e1
                exact ⟨_, if_pos rfl, e2, e3⟩
              · by_cases ha' : a = src
                · subst ha'
                  rw [hs] at e1
                  cases e1
                  have := hs'.2 e3.1
                  refine ⟨s', by simp [ha], ?_, this.2.1, ?_⟩
                  · rw [this.1]; exact e2
                  · rw [this.2.2]; exact e3.2
                · exact ⟨t, by simp [ha, ha', e1], e2, e3⟩

/-- Paying out of a vault what is owed there. -/
theorem Funds.send {vs m l} (h : Funds vs m l) {v dst n : Nat} {l' : Ledger}
    (ht : splTransfer l v dst vs n = .ok l') {m' : Market} (hc : m'.coinVault = m.coinVault)
    (hp : m'.pcVault = m.pcVault) (ho : ∀ a, owed m' a + (if a = v then n else 0) ≤ owed m a) :
    Funds vs m' l' := by
  have hm := splTransfer_moved ht
  refine ⟨hm.amounts h.amounts, ?_, ?_, ?_⟩
  · rw [hc]; exact hm.held _ _ h.coin
  · rw [hp]; exact hm.held _ _ h.pc
  · intro a
    have h1 := ho a
    have h2 := h.solvent a
    have h3 := hm.bal a
    have h4 := hm.enough
    rw [h3]
    split
    · omega
    · split
      · omega
      · split
        · rename_i e; rw [if_pos e] at h1; omega
        · omega

/-- A deposit into a vault by somebody other than the vault signer. -/
theorem Funds.deposit {vs m l} (h : Funds vs m l) {src v auth n : Nat} {l' : Ledger}
    (ht : depositIn l src v auth n = .ok l') (ha : auth ≠ vs) {m' : Market} (hc : m'.coinVault = m.coinVault)
    (hp : m'.pcVault = m.pcVault) (ho : ∀ a, owed m' a ≤ owed m a + (if a = v then n else 0))  :
    Funds vs m' l' := by
  unfold depositIn at ht
  split at ht
  · rename_i hn
    cases ht
    refine ⟨h.amounts, by rw [hc]; exact h.coin, by rw [hp]; exact h.pc, ?_⟩
    intro a
    have h1 := ho a
    have h2 := h.solvent a
    subst hn
    simp only [ite_self, Nat.add_zero] at h1
    omega
  · split at ht
    · cases ht
    · cases ht
    · rename_i l1 hs
      split at ht
      · rename_i hb
        cases ht
        have hm := splTransfer_moved hs
        refine ⟨hm.amounts h.amounts, by rw [hc]; exact hm.held _ _ h.coin, by rw [hp]; exact hm.held _ _ h.pc, ?_⟩
        intro a
        have h1 := ho a
        have h2 := h.solvent a
        by_cases hv : a = v
        · subst hv
          rw [if_pos rfl] at h1
          omega
        · rw [if_neg hv] at h1
          by_cases hsrc : a = src
          · by_cases h3 : a = m.coinVault
            · subst h3
              exact absurd (hm.auth vs (by rw [← hsrc]; exact h.coin)) ha
            · by_cases h4 : a = m.pcVault
              · subst h4
                exact absurd (hm.auth vs (by rw [← hsrc]; exact h.pc)) ha
              · have : owed m a = 0 := by simp [owed, h3, h4]
                omega
          · have h3 := hm.bal a
            rw [h3]
            split
            · omega
            · omega
      · cases ht

theorem Funds.mono {vs m l} (h : Funds vs m l) {m' : Market} (hc : m'.coinVault = m.coinVault)
    (hp : m'.pcVault = m.pcVault) (ho : ∀ a, owed m' a ≤ owed m a) : Funds vs m' l :=
  ⟨h.amounts, by rw [hc]; exact h.coin, by rw [hp]; exact h.pc,
    fun a => Nat.le_trans (ho a) (h.solvent a)⟩

end Serum
