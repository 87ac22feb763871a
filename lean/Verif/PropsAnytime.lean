import Verif.Shift
import Verif.Swap
import Verif.Acts
import Verif.PropsHist
import Verif.PropsTrade

/-
C99: it does not matter when an account is settled. Settling changes one account, four totals of the market and the
token balances; every other instruction either does not look at these (`Mv`, with the equivariance of the engine in
`Shift`) or moves tokens in a way that commutes with the payments of the settlement (`Swap`).
-/

namespace Serum.Props
open Shift

/-! ### What a settlement does to the state -/

/-- The market's totals after an account with `o` is settled. -/
def settleShift (o : OpenOrders) (paid : Bool) (m : Market) : Market :=
  { m with
    coinDeposits := wsub m.coinDeposits o.coinFree
    pcDeposits := wsub m.pcDeposits o.pcFree
    pcFees := if paid then m.pcFees else wadd m.pcFees o.rebates
    referrerRebates := wsub m.referrerRebates o.rebates }

theorem wadd_wadd_comm (a b c : Nat) : wadd (wadd a b) c = wadd (wadd a c) b := by
  unfold wadd W64; omega
theorem wadd_wsub_comm (a b c : Nat) : wsub (wadd a b) c = wadd (wsub a c) b := by
  unfold wadd wsub W64; omega
theorem wsub_wsub_comm (a b c : Nat) : wsub (wsub a b) c = wsub (wsub a c) b := by
  unfold wsub W64; omega

instance (o : OpenOrders) (b : Bool) : Equi (settleShift o b) where
  coin _ := rfl
  pc _ := rfl
  fees m f r := by
    unfold settleShift Market.accrueFees
    simp only [wadd_wsub_comm, wsub_wsub_comm _ (wsub f r)]
    cases b
    · simp only [Bool.false_eq_true, if_false]
      rw [wadd_wadd_comm]
    · rfl

/-- The account after settlement. -/
def paidOo (o : OpenOrders) : OpenOrders :=
  { o with coinFree := 0, pcFree := 0, coinTotal := o.coinTotal - o.coinFree, pcTotal := o.pcTotal - o.pcFree,
           rebates := 0 }

/-- Whether a referrer is paid. -/
def refPaid (a : SettleAccts) (o : OpenOrders) : Bool := a.referrer.isSome && decide (0 < o.rebates)

/-- The payments of a settlement. -/
def payments (m : Market) (a : SettleAccts) (o : OpenOrders) : List (Nat × Nat × Nat) :=
  [(m.coinVault, a.coinWallet.key, o.coinFree), (m.pcVault, a.pcWallet.key, o.pcFree)] ++
    match a.referrer with
    | some r => if 0 < o.rebates then [(m.pcVault, r.key, o.rebates)] else []
    | none => []

variable {I : Impl}

/-- The state with the totals, one account and the ledger replaced. -/
def moved (g : Market → Market) (A : Nat) (o : OpenOrders) (l : Ledger) (s : State I) : State I :=
  { s with mkt := g s.mkt, oos := setOo s.oos A o, toks := l }

theorem bind_go {ε α β : Type} {x : Except ε α} {f : α → Except ε β} {a : α} {r : Except ε β} (h : x = .ok a)
    (h' : f a = r) : (x >>= f) = r := by
  subst h; exact h'

theorem send_iff {P : Params} {m : Market} {l l' : Ledger} {v d n : Nat} : sendFromVault P m l v d n = .ok l' ↔
    ∃ vs, P.vaultSigner m.ownAddress m.vaultSignerNonce = some vs ∧ splTransfer l v d vs n = .ok l' := by
  unfold sendFromVault
  cases P.vaultSigner m.ownAddress m.vaultSignerNonce with
  | none => simp
  | some vs =>
    simp only [Option.some.injEq, exists_eq_left']
    cases splTransfer l v d vs n <;> simp

theorem settle_iff {P : Params} {env : Env} {s s1 : State I} {accts : List AccMeta} :
    settleFunds I P env s accts = .ok s1 ↔ ∃ a o l vs, parseSettle accts = .ok a ∧ settleArgs P env s.toCore a = .ok o ∧
      o.coinFree ≤ o.coinTotal ∧ o.pcFree ≤ o.pcTotal ∧
      P.vaultSigner s.mkt.ownAddress s.mkt.vaultSignerNonce = some vs ∧ Pays vs (payments s.mkt a o) s.toks l ∧
      s1 = moved (settleShift o (refPaid a o)) a.oo.key (paidOo o) l s := by
  have sub : ∀ {x y z : Nat}, unwrap (checkedSub x y) = .ok z ↔ y ≤ x ∧ z = x - y := by
    intro x y z
    rw [unwrap_ok]
    unfold checkedSub
    split <;> simp_all <;> omega
  constructor
  · intro h
    unfold settleFunds at h
    obtain ⟨a, h1, h⟩ := bind_ok h
    obtain ⟨o, h2, h⟩ := bind_ok h
    unfold settleExec at h
    obtain ⟨ct, h3, h⟩ := bind_ok h
    obtain ⟨pt, h4, h⟩ := bind_ok h
    obtain ⟨l1, h5, h⟩ := bind_ok h
    obtain ⟨l2, h6, h⟩ := bind_ok h
    obtain ⟨⟨m, l⟩, h7, h⟩ := bind_ok h
    obtain ⟨g3, rfl⟩ := sub.1 h3
    obtain ⟨g4, rfl⟩ := sub.1 h4
    obtain ⟨vs, hv, h5⟩ := send_iff.1 h5
    obtain ⟨vs', hv', h6⟩ := send_iff.1 h6
    have e : vs' = vs := by
      have : some vs' = some vs := hv'.symm.trans hv
      exact Option.some.inj this
    subst e
    refine ⟨a, o, l, vs', h1, h2, g3, g4, hv, ?_, ?_⟩
    · refine ⟨l1, h5, l2, h6, ?_⟩
      unfold settleRebates at h7
      cases hr : a.referrer with
      | none => rw [hr] at h7; cases h7; exact rfl
      | some r =>
        rw [hr] at h7
        by_cases hp : 0 < o.rebates
        · simp only [hp, if_true] at h7 ⊢
          obtain ⟨l3, h8, h7⟩ := bind_ok h7
          cases h7
          obtain ⟨vs2, hv2, h8⟩ := send_iff.1 h8
          have e : vs2 = vs' := by
            have : some vs2 = some vs' := hv2.symm.trans hv
            exact Option.some.inj this
          subst e
          exact ⟨l, h8, rfl⟩
        · simp only [hp, if_false] at h7 ⊢
          cases h7; exact rfl
    · cases Except.ok.inj h
      unfold moved settleShift refPaid paidOo
      unfold settleRebates at h7
      cases hr : a.referrer with
      | none => rw [hr] at h7; cases h7; rfl
      | some r =>
        rw [hr] at h7
        by_cases hp : 0 < o.rebates
        · simp only [hp, if_true] at h7
          obtain ⟨l3, h8, h7⟩ := bind_ok h7
          cases h7
          simp [hp]
        · simp only [hp, if_false] at h7
          cases h7
          simp [hp]
  · rintro ⟨a, o, l, vs, h1, h2, h3, h4, hv, ⟨l1, h5, l2, h6, h7⟩, rfl⟩
    unfold settleFunds
    refine bind_go h1 (bind_go h2 ?_)
    unfold settleExec
    refine bind_go (sub.2 ⟨h3, rfl⟩) (bind_go (sub.2 ⟨h4, rfl⟩) ?_)
    refine bind_go (send_iff.2 ⟨vs, hv, h5⟩) (bind_go (send_iff.2 ⟨vs, hv, h6⟩) ?_)
    unfold settleRebates moved settleShift refPaid paidOo
    cases hr : a.referrer with
    | none => rw [hr] at h7; cases h7; rfl
    | some r =>
      rw [hr] at h7
      by_cases hp : 0 < o.rebates
      · simp only [hp, if_true] at h7
        obtain ⟨l3, h8, h7⟩ := h7
        cases h7
        simp only [gt_iff_lt, hp, if_true, Option.isSome_some, decide_true, Bool.and_self]
        exact bind_go (bind_go (send_iff.2 ⟨vs, hv, h8⟩) rfl) rfl
      · simp only [hp, if_false] at h7
        cases h7
        simp only [gt_iff_lt, hp, if_false, Option.isSome_some, decide_false, Bool.and_false, Bool.false_eq_true]
        rfl

/-! ### Instructions that move no tokens -/

theorem setOo_comm {l : List (Nat × OpenOrders)} {a b : Nat} {x y o : OpenOrders} (hne : b ≠ a) (h : ooAt l a = some o) :
    setOo (setOo l a x) b y = setOo (setOo l b y) a x := by
  induction l with
  | nil => cases h
  | cons e l ih =>
    obtain ⟨c, p⟩ := e
    rw [ooAt_cons] at h
    by_cases h1 : a = c
    · subst h1
      simp [setOo, hne]
    · rw [if_neg h1] at h
      by_cases h2 : b = c
      · subst h2
        simp [setOo, h1]
      · simp [setOo, h1, h2, ih h]

/-- One state is the other with account `A`, the totals and the ledger changed. -/
structure Mv (g : Market → Market) (A : Nat) (o o' : OpenOrders) (l : Ledger) (x y : State I) : Prop where
  eq : y = moved g A o' l x
  acct : ooAt x.oos A = some o

section quiet
variable {q o o' : OpenOrders} {b : Bool} {A : Nat} {l : Ledger}

theorem loadOrders_mv {s : State I} {env : Env} {k : Nat} {ow au : Option Nat} {r : Bool} (hk : k ≠ A) :
    loadOrders (moved (settleShift q b) A o' l s).toCore env k ow r au = loadOrders s.toCore env k ow r au := by
  unfold loadOrders
  show (match ooAt (setOo s.oos A o') k with | some _ => _ | none => _) = _
  rw [ooAt_setOo, if_neg hk]
  rfl

theorem Mv.ob {x y : State I} (h : Mv (settleShift q b) A o o' l x y) :
    RG (settleShift q b) (x.ob I x.mkt) (y.ob I y.mkt) := by
  rw [h.eq]
  exact ⟨rfl, rfl, rfl, rfl, rfl⟩

theorem Mv.back {x y : State I} (h : Mv (settleShift q b) A o o' l x y) {u v : Ob I} (hu : RG (settleShift q b) u v)
    {k : Nat} (hk : k ≠ A) (p : OpenOrders) : Mv (settleShift q b) A o o' l (x.back I u k p) (y.back I v k p) := by
  refine ⟨?_, ?_⟩
  · rw [h.eq]
    unfold State.back moved
    simp only [← hu.bids, ← hu.asks, ← hu.q, hu.mkt]
    rw [setOo_comm hk h.acct]
  · show ooAt (setOo x.oos k p) A = _
    rw [ooAt_setOo, if_neg (Ne.symm hk)]
    exact h.acct

theorem Mv.set {x y : State I} (h : Mv (settleShift q b) A o o' l x y) {k : Nat} (hk : k ≠ A) (p : OpenOrders) :
    Mv (settleShift q b) A o o' l { x with oos := setOo x.oos k p } { y with oos := setOo y.oos k p } := by
  refine ⟨?_, ?_⟩
  · rw [h.eq]
    unfold moved
    simp only
    rw [setOo_comm hk h.acct]
  · show ooAt (setOo x.oos k p) A = _
    rw [ooAt_setOo, if_neg (Ne.symm hk)]
    exact h.acct

theorem cancelArgs_mv {s : State I} {env : Env} {a : CancelAccts} (hk : a.oo.key ≠ A) :
    cancelArgs env (moved (settleShift q b) A o' l s).toCore a = cancelArgs env s.toCore a := by
  unfold cancelArgs
  rw [loadOrders_mv hk]
  rfl

theorem parseCancel_mem {accts : List AccMeta} {a : CancelAccts} (h : parseCancel accts = .ok a) : a.oo ∈ accts := by
  unfold parseCancel at h
  split at h
  · cases h; simp
  · cases h

theorem mv_cancelV2 {x y : State I} (h : Mv (settleShift q b) A o o' l x y) {accts : List AccMeta}
    (hk : ∀ a ∈ accts, a.key ≠ A) (env : Env) (side : Side) (id : Nat) :
    Sim (Mv (settleShift q b) A o o' l) (cancelV2 I env x accts side id) (cancelV2 I env y accts side id) := by
  unfold cancelV2
  cases hp : parseCancel accts with
  | error e => exact rfl
  | ok a =>
    have ha := hk _ (parseCancel_mem hp)
    refine Sim.bind (R := fun u v => u = a ∧ v = a) ⟨rfl, rfl⟩ ?_
    rintro _ _ ⟨rfl, rfl⟩
    refine Sim.bind (R := (· = ·)) (Sim.of_eq (by rw [h.eq, cancelArgs_mv ha])) ?_
    rintro p _ rfl
    refine Sim.bind (sh_cancelOrderV2 h.ob _ _ _ _) ?_
    rintro ⟨u, p'⟩ ⟨v, _⟩ ⟨hu, rfl⟩
    exact h.back hu ha _

theorem mv_cancelByClientIdV2 {x y : State I} (h : Mv (settleShift q b) A o o' l x y) {accts : List AccMeta}
    (hk : ∀ a ∈ accts, a.key ≠ A) (env : Env) (cid : Nat) :
    Sim (Mv (settleShift q b) A o o' l) (cancelByClientIdV2 I env x accts cid) (cancelByClientIdV2 I env y accts cid) := by
  unfold cancelByClientIdV2
  cases hp : parseCancel accts with
  | error e => exact rfl
  | ok a =>
    have ha := hk _ (parseCancel_mem hp)
    refine Sim.bind (R := fun u v => u = a ∧ v = a) ⟨rfl, rfl⟩ ?_
    rintro _ _ ⟨rfl, rfl⟩
    refine Sim.refl.bind ?_
    rintro _ _ rfl
    refine Sim.bind (R := (· = ·)) (Sim.of_eq (by rw [h.eq, cancelArgs_mv ha])) ?_
    rintro p _ rfl
    refine Sim.refl.bind ?_
    rintro ⟨id, side⟩ _ rfl
    refine Sim.bind (sh_cancelOrderV2 h.ob _ _ _ _) ?_
    rintro ⟨u, p'⟩ ⟨v, _⟩ ⟨hu, rfl⟩
    exact h.back hu ha _

theorem sh_cancelMany {g : Market → Market} [Equi g] (a : Nat) (ids : List (Nat × Side)) {s t : Ob I} (h : RG g s t)
    (oo : OpenOrders) : Sim (RGR g) (cancelMany I a s oo ids) (cancelMany I a t oo ids) := by
  induction ids generalizing s t oo with
  | nil => exact ⟨h, rfl⟩
  | cons e rest ih =>
    obtain ⟨id, side⟩ := e
    unfold cancelMany
    have hs := sh_cancelOrderV2 h side a oo id
    cases h1 : cancelOrderV2 I s side a oo id with
    | ok x =>
      obtain ⟨y, h2, hxy⟩ := hs.ok_right h1
      rw [h2]
      obtain ⟨x, o⟩ := x
      obtain ⟨y, o'⟩ := y
      obtain ⟨hx, hr⟩ := hxy
      simp only at hr
      subst hr
      exact ih hx _
    | error e =>
      rw [hs.error_right h1]
      cases e <;> first | exact ih h oo | rfl

theorem mv_cancelByClientIds {x y : State I} (h : Mv (settleShift q b) A o o' l x y) {accts : List AccMeta}
    (hk : ∀ a ∈ accts, a.key ≠ A) (env : Env) (cids : List Nat) :
    Sim (Mv (settleShift q b) A o o' l) (cancelByClientIds I env x accts cids) (cancelByClientIds I env y accts cids) := by
  unfold cancelByClientIds
  cases hp : parseCancel accts with
  | error e => exact rfl
  | ok a =>
    have ha := hk _ (parseCancel_mem hp)
    refine Sim.bind (R := fun u v => u = a ∧ v = a) ⟨rfl, rfl⟩ ?_
    rintro _ _ ⟨rfl, rfl⟩
    refine Sim.bind (R := (· = ·)) (Sim.of_eq (by rw [h.eq, cancelArgs_mv ha])) ?_
    rintro p _ rfl
    refine Sim.bind (sh_cancelMany _ _ h.ob _) ?_
    rintro ⟨u, p'⟩ ⟨v, _⟩ ⟨hu, rfl⟩
    exact h.back hu ha _

theorem mv_consumeOne {x y : State I} (h : Mv (settleShift q b) A o o' l x y) (P : Params) (env : Env)
    {keys : List Nat} (hk : A ∉ keys) :
    Sim (OSim (Mv (settleShift q b) A o o' l)) (consumeOne I P env x keys) (consumeOne I P env y keys) := by
  unfold consumeOne
  have hq : y.q = x.q := by rw [h.eq]; rfl
  rw [hq]
  cases hp : I.peek x.q with
  | none => trivial
  | some e =>
    simp only
    refine Sim.refl.bind ?_
    rintro v _ rfl
    by_cases hf : P.search.find keys e.owner = true
    · have hne : e.owner ≠ A := fun e' => hk (e' ▸ P.search.sound _ _ hf)
      refine Sim.bind (R := (· = ·)) (Sim.of_eq ?_) ?_
      · unfold eventOwner
        rw [h.eq, loadOrders_mv hne]
      · rintro r _ rfl
        cases r with
        | none => trivial
        | some oo =>
          refine Sim.refl.bind ?_
          rintro p _ rfl
          refine Sim.refl.bind ?_
          rintro q' _ rfl
          have := h.set hne p
          exact ⟨by rw [h.eq]; have := this.eq; rw [h.eq] at this; unfold moved at this ⊢; simp only [State.mk.injEq, Core.mk.injEq] at this ⊢; simp [this], this.acct⟩
    · refine Sim.bind (R := fun r r' => r = none ∧ r' = none) ?_ ?_
      · unfold eventOwner
        rw [if_neg hf, if_neg hf]
        exact ⟨rfl, rfl⟩
      · rintro _ _ ⟨rfl, rfl⟩
        trivial

theorem mv_consumeLoop (P : Params) (env : Env) {keys : List Nat} (hk : A ∉ keys) (n : Nat) {x y : State I}
    (h : Mv (settleShift q b) A o o' l x y) :
    Sim (Mv (settleShift q b) A o o' l) (consumeLoop I P env keys n x) (consumeLoop I P env keys n y) := by
  induction n generalizing x y with
  | zero => exact h
  | succ n ih =>
    unfold consumeLoop
    refine Sim.bind (mv_consumeOne h P env hk) ?_
    intro x y hxy
    cases x <;> cases y <;> simp [OSim] at hxy
    · exact h
    · exact ih hxy

theorem notMem_take {accts : List AccMeta} (hk : ∀ a ∈ accts, a.key ≠ A) (n : Nat) : A ∉ (accts.take n).map (·.key) := by
  intro h
  obtain ⟨a, ha, e⟩ := List.mem_map.1 h
  exact hk a (List.mem_of_mem_take ha) e

theorem mv_consumeEvents {x y : State I} (h : Mv (settleShift q b) A o o' l x y) (P : Params) (env : Env)
    {accts : List AccMeta} (hk : ∀ a ∈ accts, a.key ≠ A) (n : Nat) :
    Sim (Mv (settleShift q b) A o o' l) (consumeEvents I P env x accts n) (consumeEvents I P env y accts n) := by
  unfold consumeEvents
  refine Sim.refl.bind ?_
  rintro _ _ rfl
  split
  · refine Sim.bind (R := (· = ·)) (Sim.of_eq (by rw [h.eq]; rfl)) ?_
    rintro _ _ rfl
    refine Sim.bind (R := (· = ·)) (Sim.of_eq (by rw [h.eq]; rfl)) ?_
    rintro _ _ rfl
    refine Sim.bind (R := (· = ·)) (Sim.of_eq (by rw [h.eq]; rfl)) ?_
    rintro _ _ rfl
    exact mv_consumeLoop P env (notMem_take hk _) n h
  · rfl

theorem mv_consumeEventsPermissioned {x y : State I} (h : Mv (settleShift q b) A o o' l x y) (P : Params) (env : Env)
    {accts : List AccMeta} (hk : ∀ a ∈ accts, a.key ≠ A) (n : Nat) :
    Sim (Mv (settleShift q b) A o o' l) (consumeEventsPermissioned I P env x accts n)
      (consumeEventsPermissioned I P env y accts n) := by
  unfold consumeEventsPermissioned
  refine Sim.refl.bind ?_
  rintro _ _ rfl
  split
  · refine Sim.bind (R := (· = ·)) (Sim.of_eq (by rw [h.eq]; rfl)) ?_
    rintro _ _ rfl
    refine Sim.refl.bind ?_
    rintro _ _ rfl
    refine Sim.bind (R := (· = ·)) (Sim.of_eq (by rw [h.eq]; rfl)) ?_
    rintro _ _ rfl
    refine Sim.bind (R := (· = ·)) (Sim.of_eq (by rw [h.eq]; rfl)) ?_
    rintro _ _ rfl
    exact mv_consumeLoop P env (notMem_take hk _) n h
  · rfl

theorem mv_disable {x y : State I} (h : Mv (settleShift q b) A o o' l x y) (P : Params) (accts : List AccMeta) :
    Sim (Mv (settleShift q b) A o o' l) (disableMarket I P x accts) (disableMarket I P y accts) := by
  unfold disableMarket
  split
  · refine Sim.bind (R := (· = ·)) (Sim.of_eq (by rw [h.eq]; rfl)) ?_
    rintro _ _ rfl
    refine Sim.refl.bind ?_
    rintro _ _ rfl
    refine Sim.refl.bind ?_
    rintro _ _ rfl
    exact ⟨by rw [h.eq]; rfl, h.acct⟩
  · rfl

theorem mv_close {x y : State I} (h : Mv (settleShift q b) A o o' l x y) (env : Env) {accts : List AccMeta}
    (hk : ∀ a ∈ accts, a.key ≠ A) :
    Sim (Mv (settleShift q b) A o o' l) (closeOpenOrders I env x accts) (closeOpenOrders I env y accts) := by
  unfold closeOpenOrders
  split
  · rename_i oo owner dest m
    have ha := hk oo (by simp)
    refine Sim.refl.bind ?_
    rintro _ _ rfl
    refine Sim.bind (R := (· = ·)) (Sim.of_eq (by rw [h.eq]; rfl)) ?_
    rintro _ _ rfl
    refine Sim.bind (R := (· = ·)) (Sim.of_eq (by rw [h.eq, loadOrders_mv ha])) ?_
    rintro p _ rfl
    refine Sim.refl.bind ?_
    rintro _ _ rfl
    exact h.set ha _
  · rfl

theorem mv_init {x y : State I} (h : Mv (settleShift q b) A o o' l x y) (env : Env) {accts : List AccMeta}
    (hk : ∀ a ∈ accts, a.key ≠ A) :
    Sim (Mv (settleShift q b) A o o' l) (initOpenOrders I env x accts) (initOpenOrders I env y accts) := by
  unfold initOpenOrders
  split
  · rename_i oo owner m rent rest
    have ha := hk oo (by simp)
    refine Sim.ite ?_ rfl
    refine Sim.refl.bind ?_
    rintro _ _ rfl
    refine Sim.refl.bind ?_
    rintro _ _ rfl
    refine Sim.bind (R := (· = ·)) (Sim.of_eq (by rw [h.eq]; rfl)) ?_
    rintro _ _ rfl
    refine Sim.bind (R := (· = ·)) (Sim.of_eq (by rw [h.eq, loadOrders_mv ha])) ?_
    rintro p _ rfl
    exact h.set ha _
  · rfl

theorem sh_cancelLeaves {g : Market → Market} [Equi g] (side : Side) (a : Nat) (ls : List Leaf) {s t : Ob I} (h : RG g s t)
    (oo : OpenOrders) : Sim (RGR g) (cancelLeaves I side a s oo ls) (cancelLeaves I side a t oo ls) := by
  induction ls generalizing s t oo with
  | nil => exact ⟨h, rfl⟩
  | cons l ls ih =>
    unfold cancelLeaves
    refine Sim.refl.bind ?_
    rintro _ _ rfl
    refine Sim.bind (sh_cancelLeaf h _ _ _ _ _) ?_
    rintro ⟨x, o⟩ ⟨y, o'⟩ ⟨hx, hr⟩
    simp only at hr
    subst hr
    exact ih hx _

theorem mv_prune {x y : State I} (h : Mv (settleShift q b) A o o' l x y) (env : Env) {accts : List AccMeta}
    (hk : ∀ a ∈ accts, a.key ≠ A) (n : Nat) :
    Sim (Mv (settleShift q b) A o o' l) (prune I env x accts n) (prune I env y accts n) := by
  unfold prune
  split
  · rename_i m bd ak auth oo owner eq
    have ha := hk oo (by simp)
    refine Sim.refl.bind ?_
    rintro _ _ rfl
    refine Sim.bind (R := (· = ·)) (Sim.of_eq (by rw [h.eq]; rfl)) ?_
    rintro _ _ rfl
    refine Sim.bind (R := (· = ·)) (Sim.of_eq (by rw [h.eq]; rfl)) ?_
    rintro _ _ rfl
    refine Sim.bind (R := (· = ·)) (Sim.of_eq (by rw [h.eq, loadOrders_mv ha])) ?_
    rintro p _ rfl
    refine Sim.bind (R := (· = ·)) (Sim.of_eq (by rw [h.eq]; rfl)) ?_
    rintro _ _ rfl
    refine Sim.bind (R := (· = ·)) (Sim.of_eq (by rw [h.eq]; rfl)) ?_
    rintro _ _ rfl
    refine Sim.bind (R := (· = ·)) (Sim.of_eq (by rw [h.eq]; rfl)) ?_
    rintro _ _ rfl
    refine Sim.bind (sh_removeAll h.ob _ _) ?_
    rintro ⟨u, c, d⟩ ⟨v, _, _⟩ ⟨hu, hr⟩
    simp only [Prod.mk.injEq] at hr
    obtain ⟨rfl, rfl⟩ := hr
    refine Sim.bind (sh_cancelLeaves _ _ _ hu _) ?_
    rintro ⟨u, p⟩ ⟨v, _⟩ ⟨hu, rfl⟩
    refine Sim.bind (sh_cancelLeaves _ _ _ hu _) ?_
    rintro ⟨u, p⟩ ⟨v, _⟩ ⟨hu, rfl⟩
    exact h.back hu ha _
  · rfl

end quiet

/-! ### Instructions that move tokens -/

/-- What a settlement prepared in state `x` and made in `y` rests on. -/
structure Prep (P : Params) (vs A : Nat) (o o' : OpenOrders) (b : Bool) (ts : List (Nat × Nat × Nat)) (l : Ledger)
    (x y : State I) : Prop where
  mv : Mv (settleShift o b) A o o' l x y
  signer : P.vaultSigner x.mkt.ownAddress x.mkt.vaultSignerNonce = some vs
  two : Two vs x.mkt.coinVault x.mkt.pcVault x.toks
  legs : Legs x.mkt.coinVault x.mkt.pcVault ts
  pays : Pays vs ts x.toks l
  coin : o.coinFree ≤ x.mkt.coinDeposits ∧ x.mkt.coinDeposits < W64
  pc : o.pcFree ≤ x.mkt.pcDeposits ∧ x.mkt.pcDeposits < W64

section loud
variable {P : Params} {vs A : Nat} {o o' : OpenOrders} {b : Bool} {ts : List (Nat × Nat × Nat)} {l : Ledger}
  {x y : State I}

theorem tokAcct_pays {l l' : Ledger} (h : Pays vs ts l l') {k : Nat} {t : Tok} (ht : tokAcct l k = .ok t) :
    ∃ t', tokAcct l' k = .ok t' ∧ t'.mint = t.mint := by
  unfold tokAcct at ht ⊢
  cases hl : l k with
  | none => rw [hl] at ht; cases ht
  | some u =>
    rw [hl] at ht
    simp only at ht
    split at ht
    · cases ht
    · rename_i hf
      cases ht
      obtain ⟨t', e1, e2, e3⟩ := h.keeps k t hl
      rw [e1]
      simp only [e3, hf]
      exact ⟨t', rfl, e2⟩

theorem Prep.coinVault (h : Prep P vs A o o' b ts l x y) {a : AccMeta} {u : Unit} (e : coinVault x.toCore a = .ok u) :
    Serum.coinVault y.toCore a = .ok u := by
  unfold Serum.coinVault at e ⊢
  rw [h.mv.eq]
  obtain ⟨t, e1, e⟩ := bind_ok e
  obtain ⟨t', e2, _⟩ := tokAcct_pays h.pays e1
  exact bind_go e2 e

theorem Prep.pcVault (h : Prep P vs A o o' b ts l x y) {a : AccMeta} {u : Unit} (e : pcVault x.toCore a = .ok u) :
    Serum.pcVault y.toCore a = .ok u := by
  unfold Serum.pcVault at e ⊢
  rw [h.mv.eq]
  obtain ⟨t, e1, e⟩ := bind_ok e
  obtain ⟨t', e2, _⟩ := tokAcct_pays h.pays e1
  exact bind_go e2 e

theorem Prep.coinWallet (h : Prep P vs A o o' b ts l x y) {a : AccMeta} {u : Unit} (e : coinWallet x.toCore a = .ok u) :
    Serum.coinWallet y.toCore a = .ok u := by
  unfold Serum.coinWallet at e ⊢
  rw [h.mv.eq]
  obtain ⟨t, e1, e⟩ := bind_ok e
  obtain ⟨t', e2, em⟩ := tokAcct_pays h.pays e1
  exact bind_go e2 (by rw [em]; exact e)

theorem Prep.pcWallet (h : Prep P vs A o o' b ts l x y) {a : AccMeta} {u : Unit} (e : pcWallet x.toCore a = .ok u) :
    Serum.pcWallet y.toCore a = .ok u := by
  unfold Serum.pcWallet at e ⊢
  rw [h.mv.eq]
  obtain ⟨t, e1, e⟩ := bind_ok e
  obtain ⟨t', e2, em⟩ := tokAcct_pays h.pays e1
  exact bind_go e2 (by rw [em]; exact e)

theorem orAssert_go {α : Type} {u v : Except Err α} {r : α} (h : u = .ok r → v = .ok r) (e : orAssert u = .ok r) :
    orAssert v = .ok r := by
  unfold orAssert at e ⊢
  cases hu : u with
  | error e' => rw [hu] at e; cases e
  | ok r' =>
    rw [hu] at e
    cases e
    rw [h hu]

theorem Prep.discount (h : Prep P vs A o o' b ts l x y) {ds : List AccMeta}
    (hd : ∀ a ∈ ds, ∀ z ∈ ts, a.key ≠ z.1 ∧ a.key ≠ z.2.1) : discountAcct y.toCore ds = discountAcct x.toCore ds := by
  unfold discountAcct
  split
  · rfl
  · rename_i a
    have e : y.toks a.key = x.toks a.key := by
      rw [h.mv.eq]
      exact h.pays.others _ (hd a (by simp))
    have : tokAcct y.toks a.key = tokAcct x.toks a.key := by unfold tokAcct; rw [e]
    rw [this]
  · rfl

theorem Prep.payer (h : Prep P vs A o o' b ts l x y) {a : AccMeta} {sd : Side} {u : Unit}
    (e : checkPayer x.toCore a sd = .ok u) : checkPayer y.toCore a sd = .ok u := by
  unfold checkPayer at e ⊢
  cases sd
  · exact orAssert_go h.pcWallet e
  · exact orAssert_go h.coinWallet e

theorem Prep.newOrderArgs (h : Prep P vs A o o' b ts l x y) {env : Env} {a : NewOrderAccts} {sd : Side}
    {r : FeeTier × OpenOrders} (hd : ∀ k ∈ a.discount, ∀ z ∈ ts, k.key ≠ z.1 ∧ k.key ≠ z.2.1) (hk : a.oo.key ≠ A)
    (e : newOrderArgs P env x.toCore a sd = .ok r) : Serum.newOrderArgs P env y.toCore a sd = .ok r := by
  unfold Serum.newOrderArgs at e ⊢
  rw [h.discount hd]
  obtain ⟨v1, e1, e⟩ := bind_ok e
  obtain ⟨v2, e2, e⟩ := bind_ok e
  obtain ⟨v3, e3, e⟩ := bind_ok e
  obtain ⟨v4, e4, e⟩ := bind_ok e
  obtain ⟨v5, e5, e⟩ := bind_ok e
  obtain ⟨v6, e6, e⟩ := bind_ok e
  obtain ⟨v7, e7, e⟩ := bind_ok e
  obtain ⟨v8, e8, e⟩ := bind_ok e
  obtain ⟨v9, e9, e⟩ := bind_ok e
  obtain ⟨v10, e10, e⟩ := bind_ok e
  obtain ⟨v11, e11, e⟩ := bind_ok e
  obtain ⟨v12, e12, e⟩ := bind_ok e
  obtain ⟨v13, e13, e⟩ := bind_ok e
  obtain ⟨v14, e14, e⟩ := bind_ok e
  obtain ⟨v15, e15, e⟩ := bind_ok e
  have e8 := h.payer e8
  have e9 := h.coinVault e9
  have e10 := h.pcVault e10
  obtain ⟨t', e7, _⟩ := tokAcct_pays h.pays e7
  rw [h.mv.eq] at e8 e9 e10 ⊢
  refine bind_go e1 (bind_go e2 (bind_go e3 (bind_go e4 (bind_go e5 (bind_go e6 (bind_go e7 (bind_go e8 (bind_go e9
    (bind_go e10 (bind_go e11 (bind_go e12 (bind_go e13 (bind_go e14 (bind_go ?_ e))))))))))))))
  rw [loadOrders_mv hk]
  exact e15

theorem Prep.deposit {c p : Nat} {l k l1 : Ledger} (h2 : Two vs c p l) (hl : Legs c p ts) (hp : Pays vs ts l k)
    {pyr v auth n : Nat} (hv : v = c ∨ v = p) (ha : auth ≠ vs) (hd : depositIn l pyr v auth n = .ok l1) :
    n ≤ bal k pyr ∧ ∃ l2, Pays vs ts l1 l2 ∧ depositIn k pyr v auth n = .ok l2 := by
  unfold depositIn at hd ⊢
  split at hd
  · rename_i h0
    cases hd
    rw [if_pos h0]
    exact ⟨by omega, k, hp, rfl⟩
  · rename_i h0
    rw [if_neg h0]
    split at hd
    · cases hd
    · cases hd
    · rename_i l2 hs
      split at hd
      · rename_i hb
        cases hd
        have hm := splTransfer_moved hs
        have hq : pyr ≠ c ∧ pyr ≠ p := by
          refine ⟨fun e => ha (hm.auth vs ?_), fun e => ha (hm.auth vs ?_)⟩
          · rw [e]; exact h2.1
          · rw [e]; exact h2.2
        obtain ⟨l3, g1, g2⟩ := pays_swap_in hq hv h2 hl hs hp
        refine ⟨Nat.le_trans hm.enough (hp.grows hl pyr hq.1 hq.2), l3, g1, ?_⟩
        rw [g2]
        simp only
        rw [if_pos]
        rw [(splTransfer_moved g2).bal, if_neg (ne_of_legs hv hq.1 hq.2).symm, if_pos rfl]
      · cases hd

theorem lockFunds_mv {m m' : Market} {p p' : OpenOrders} {ix : NewOrderIx} {n n' d : Nat}
    (hc : o.coinFree ≤ m.coinDeposits ∧ m.coinDeposits < W64) (hp : o.pcFree ≤ m.pcDeposits ∧ m.pcDeposits < W64)
    (h : lockFunds m p ix n = .ok (m', p', d)) (hn : d ≤ n') :
    lockFunds (settleShift o b m) p ix n' = .ok (settleShift o b m', p', d) := by
  unfold lockFunds at h ⊢
  cases hs : ix.side with
  | bid =>
    rw [hs] at h
    simp only at h ⊢
    split at h
    · cases h
    obtain ⟨p1, e1, h⟩ := bind_ok h
    obtain ⟨p2, e2, h⟩ := bind_ok h
    obtain ⟨v, e3, h⟩ := bind_ok h
    cases h
    rw [if_neg (by omega)]
    rw [unwrap_ok] at e3
    unfold checkedAdd at e3
    split at e3
    · rename_i hlt
      cases e3
      have wait1 : wsub m.pcDeposits o.pcFree = m.pcDeposits - o.pcFree := wsub_eq hp.1 hp.2
      have wait2 : wsub (m.pcDeposits + (ix.maxPcQty - min ix.maxPcQty p.pcFree)) o.pcFree =
        m.pcDeposits - o.pcFree + (ix.maxPcQty - min ix.maxPcQty p.pcFree) := by
        rw [wsub_eq (by omega) hlt]; omega
      refine bind_go e1 (bind_go e2 (bind_go (a := m.pcDeposits - o.pcFree + (ix.maxPcQty - min ix.maxPcQty p.pcFree))
        (unwrap_ok.2 ?_) ?_))
      · show checkedAdd (wsub m.pcDeposits o.pcFree) _ = _
        rw [wait1]
        unfold checkedAdd
        rw [if_pos (by omega)]
      · unfold settleShift
        simp only [wait2]
        rfl
    · cases e3
  | ask =>
    rw [hs] at h
    simp only at h ⊢
    show (match checkedMul ix.maxCoinQty m.coinLot with | none => _ | some _ => _) = _
    cases hm : checkedMul ix.maxCoinQty m.coinLot with
    | none => rw [hm] at h; cases h
    | some lock =>
      rw [hm] at h
      simp only at h ⊢
      split at h
      · cases h
      obtain ⟨p1, e1, h⟩ := bind_ok h
      obtain ⟨p2, e2, h⟩ := bind_ok h
      obtain ⟨v, e3, h⟩ := bind_ok h
      cases h
      rw [if_neg (by omega)]
      rw [unwrap_ok] at e3
      unfold checkedAdd at e3
      split at e3
      · rename_i hlt
        cases e3
        have wait1 : wsub m.coinDeposits o.coinFree = m.coinDeposits - o.coinFree := wsub_eq hc.1 hc.2
        have wait2 : wsub (m.coinDeposits + (lock - min lock p.coinFree)) o.coinFree =
          m.coinDeposits - o.coinFree + (lock - min lock p.coinFree) := by
          rw [wsub_eq (by omega) hlt]; omega
        refine bind_go e1 (bind_go e2 (bind_go (a := m.coinDeposits - o.coinFree + (lock - min lock p.coinFree))
          (unwrap_ok.2 ?_) ?_))
        · show checkedAdd (wsub m.coinDeposits o.coinFree) _ = _
          rw [wait1]
          unfold checkedAdd
          rw [if_pos (by omega)]
        · unfold settleShift
          simp only [wait2]
          rfl
      · cases e3

theorem parseNewOrder_parts {accts : List AccMeta} {a : NewOrderAccts} (h : parseNewOrder accts = .ok a) :
    a.oo ∈ accts ∧ a.owner ∈ accts ∧ a.discount = accts.drop 12 := by
  unfold parseNewOrder at h
  split at h
  · split at h
    · cases h; simp
    · cases h
  · cases h

theorem depositVault_of (m : Market) (sd : Side) : m.depositVault sd = m.coinVault ∨ m.depositVault sd = m.pcVault := by
  cases sd
  · exact .inr rfl
  · exact .inl rfl

theorem Prep.newOrder (h : Prep P vs A o o' b ts l x y) {env : Env} {accts : List AccMeta} {ix : NewOrderIx} {x2 : State I}
    (hk : ∀ a ∈ accts, a.key ≠ A) (hn : NotVault P x.mkt accts)
    (hd : ∀ a ∈ accts.drop 12, ∀ z ∈ ts, a.key ≠ z.1 ∧ a.key ≠ z.2.1) (hp : ix.limitPrice < W64)
    (e : newOrderV3 I P env x accts ix = .ok x2) :
    ∃ l2 y2, newOrderV3 I P env y accts ix = .ok y2 ∧ Pays vs ts x2.toks l2 ∧ Mv (settleShift o b) A o o' l2 x2 y2 := by
  unfold newOrderV3 at e ⊢
  obtain ⟨a, e1, e⟩ := bind_ok e
  obtain ⟨⟨tier, p⟩, e2, e⟩ := bind_ok e
  obtain ⟨m1, m2, m3⟩ := parseNewOrder_parts e1
  have hoo := hk _ m1
  have hargs := h.newOrderArgs (by rw [m3]; exact hd) hoo e2
  have hsig : a.owner.signer = true := by
    unfold Serum.newOrderArgs at e2
    obtain ⟨_, _, e2⟩ := bind_ok e2
    obtain ⟨_, _, e2⟩ := bind_ok e2
    obtain ⟨_, e3, e2⟩ := bind_ok e2
    exact checkAssert_ok.1 e3
  have hauth : a.owner.key ≠ vs := fun e' => hn _ m2 hsig (by rw [h.signer, e'])
  simp only at e
  unfold newOrderExec at e
  obtain ⟨_, f1, e⟩ := bind_ok e
  obtain ⟨_, f2, e⟩ := bind_ok e
  obtain ⟨⟨m', p1, d⟩, f3, e⟩ := bind_ok e
  obtain ⟨⟨slot, p2⟩, f4, e⟩ := bind_ok e
  obtain ⟨⟨ob, rem, i⟩, f5, e⟩ := bind_ok e
  obtain ⟨_, f6, e⟩ := bind_ok e
  obtain ⟨p3, f7, e⟩ := bind_ok e
  obtain ⟨l1, f8, e⟩ := bind_ok e
  cases Except.ok.inj e
  obtain ⟨g1, l2, g2, g3⟩ := Prep.deposit h.two h.legs h.pays (depositVault_of _ _) hauth f8
  have g4 := lockFunds_mv (b := b) h.coin h.pc f3 g1
  have hob : RG (settleShift o b) (x.ob I m') (y.ob I (settleShift o b m')) := by
    rw [h.mv.eq]; exact ⟨rfl, rfl, rfl, rfl, rfl⟩
  obtain ⟨⟨ob', r'⟩, g5, hx, hr⟩ := (sh_newOrder hob _ (Refines.orderId_lt _ hp) _).ok_right f5
  simp only at hx hr
  subst hr
  refine ⟨l2, { y with
    mkt := ob'.mkt
    seq := y.seq + 1
    oos := setOo y.oos a.oo.key p3
    toks := l2
    bids := ob'.bids
    asks := ob'.asks
    q := ob'.q }, ?_, g2, ?_, ?_⟩
  · refine bind_go e1 (bind_go hargs ?_)
    simp only
    unfold newOrderExec
    have hm : y.mkt = settleShift o b x.mkt := by rw [h.mv.eq]; rfl
    have hl : y.toks = l := by rw [h.mv.eq]; rfl
    have hq : y.seq = x.seq := by rw [h.mv.eq]; rfl
    refine bind_go f1 (bind_go (by rw [h.mv.eq]; exact f2) (bind_go (a := (settleShift o b m', p1, d)) (by rw [hm, hl]; exact g4)
      (bind_go (a := (slot, p2)) (by rw [hq]; exact f4) (bind_go (a := (ob', rem, i)) (by rw [hq]; exact g5) (bind_go f6
      (bind_go (a := p3) ?_ (bind_go (a := l2) ?_ rfl)))))))
    · rw [← hx.pr, hx.mkt]; exact f7
    · rw [hm, hl]; exact g3
  · rw [h.mv.eq]
    unfold moved
    simp only [← hx.bids, ← hx.asks, ← hx.q, hx.mkt]
    rw [setOo_comm hoo h.mv.acct]
  · show ooAt (setOo x.oos a.oo.key p3) A = _
    rw [ooAt_setOo, if_neg (Ne.symm hoo)]
    exact h.mv.acct

/-- Totals as `u64`s. -/
def normTotals (m : Market) : Market :=
  { m with coinDeposits := m.coinDeposits % W64, pcDeposits := m.pcDeposits % W64 }

instance : Equi normTotals where
  coin _ := rfl
  pc _ := rfl
  fees m f r := by
    unfold normTotals Market.accrueFees
    have : wsub (m.pcDeposits % W64) (wsub f r) = wsub m.pcDeposits (wsub f r) % W64 := by
      unfold wsub W64; omega
    simp only [this]

/-- The engine keeps the totals within a `u64`. -/
theorem newOrder_totals {ob ob' : Ob I} {p : OrderParams} {n : Nat} {r : Option Remaining × Nat} (hk : p.orderId < 2 ^ 128)
    (hc : ob.mkt.coinDeposits < W64) (hp : ob.mkt.pcDeposits < W64) (h : newOrder I ob p n = .ok (ob', r)) :
    ob'.mkt.coinDeposits < W64 ∧ ob'.mkt.pcDeposits < W64 := by
  have hg : RG normTotals ob ob := by
    refine ⟨rfl, rfl, rfl, ?_, rfl⟩
    unfold normTotals
    rw [Nat.mod_eq_of_lt hc, Nat.mod_eq_of_lt hp]
  obtain ⟨⟨u, r'⟩, h1, hx, _⟩ := (sh_newOrder hg p hk n).ok_right h
  rw [h] at h1
  cases Except.ok.inj h1
  have hm : ob'.mkt = normTotals ob'.mkt := hx.mkt
  rw [hm]
  exact ⟨Nat.mod_lt _ (by decide), Nat.mod_lt _ (by decide)⟩

theorem totals_mv {m m' : Market} {sd : Side} {pr : Proceeds} {d w : Nat} (h1 : m.coinDeposits < W64) (h2 : m.pcDeposits < W64)
    (h : sendTakeTotals m sd pr = .ok (m', d, w)) (hc : o.coinFree ≤ m'.coinDeposits) (hp : o.pcFree ≤ m'.pcDeposits) :
    sendTakeTotals (settleShift o b m) sd pr = .ok (settleShift o b m', d, w) := by
  unfold sendTakeTotals at h ⊢
  cases sd with
  | bid =>
    simp only at h ⊢
    obtain ⟨v, e1, h⟩ := bind_ok h
    obtain ⟨u, e2, h⟩ := bind_ok h
    cases Except.ok.inj h
    have hle : w ≤ m.coinDeposits := by simpa using checkAssert_ok.1 e2
    simp only at hc hp
    rw [wsub_eq hle h1] at hc
    refine bind_go e1 (bind_go (a := ()) (checkAssert_ok.2 ?_) ?_)
    · have : (settleShift o b m).coinDeposits = m.coinDeposits - o.coinFree := wsub_eq (by omega) h1
      rw [this]
      simp
      omega
    · unfold settleShift
      simp only [wadd_wsub_comm, wsub_wsub_comm _ w]
      rfl
  | ask =>
    simp only at h ⊢
    obtain ⟨v, e1, h⟩ := bind_ok h
    obtain ⟨u, e2, h⟩ := bind_ok h
    cases Except.ok.inj h
    have hle : pr.pcCredit ≤ m.pcDeposits := by simpa using checkAssert_ok.1 e2
    simp only at hc hp
    rw [wsub_eq hle h2] at hp
    refine bind_go e1 (bind_go (a := ()) (checkAssert_ok.2 ?_) ?_)
    · have : (settleShift o b m).pcDeposits = m.pcDeposits - o.pcFree := wsub_eq (by omega) h2
      rw [this]
      simp
      omega
    · unfold settleShift
      simp only [wadd_wsub_comm, wsub_wsub_comm _ pr.pcCredit]
      rfl

theorem transfers_mv {m : Market} {k l1 l2 : Ledger} {l : Ledger} {sd : Side} {a : SendTakeAccts} {d w : Nat}
    (hs : P.vaultSigner m.ownAddress m.vaultSignerNonce = some vs) (h2 : Two vs m.coinVault m.pcVault l)
    (hl : Legs m.coinVault m.pcVault ts) (ha : a.signer.key ≠ vs)
    (hw : ∀ z ∈ [a.coinWallet, a.pcWallet], z.key ≠ m.coinVault ∧ z.key ≠ m.pcVault)
    (h : sendTakeTransfers P m l sd a d w = .ok l1) (hp : Pays vs ts l k) (hq : Pays vs ts l1 l2) :
    sendTakeTransfers P (settleShift o b m) k sd a d w = .ok l2 := by
  have one : ∀ {pyr v v' dst la : _}, (v = m.coinVault ∨ v = m.pcVault) → (v' = m.coinVault ∨ v' = m.pcVault) →
      (dst ≠ m.coinVault ∧ dst ≠ m.pcVault) → depositIn l pyr v a.signer.key d = .ok la →
      (if w = 0 then Except.ok la else sendFromVault P m la v' dst w) = .ok l1 →
      ∃ lb, depositIn k pyr v a.signer.key d = .ok lb ∧
        (if w = 0 then Except.ok lb else sendFromVault P m lb v' dst w) = .ok l2 := by
    intro pyr v v' dst la hv hv' hd e1 e2
    obtain ⟨_, lb, g1, g2⟩ := Prep.deposit h2 hl hp hv ha e1
    refine ⟨lb, g2, ?_⟩
    by_cases h0 : w = 0
    · rw [if_pos h0] at e2 ⊢
      cases e2
      rw [Pays.det g1 hq]
    · rw [if_neg h0] at e2 ⊢
      obtain ⟨vs', hs', e2⟩ := send_iff.1 e2
      rw [hs] at hs'
      cases hs'
      have t1 : Two vs m.coinVault m.pcVault la := by
        unfold depositIn at e1
        split at e1
        · cases e1; exact h2
        · split at e1
          · cases e1
          · cases e1
          · rename_i hx
            split at e1
            · cases e1; exact h2.spl hx
            · cases e1
      obtain ⟨lc, g3, g4⟩ := pays_swap_out hv' hd t1 hl e2 hq
      rw [Pays.det g3 g1] at g4
      exact send_iff.2 ⟨vs, hs, g4⟩
  unfold sendTakeTransfers at h ⊢
  cases sd with
  | bid =>
    simp only at h ⊢
    obtain ⟨la, e1, h⟩ := bind_ok h
    obtain ⟨lb, f1, f2⟩ := one (.inr rfl) (.inl rfl) (hw a.coinWallet (by simp)) e1 h
    exact bind_go f1 f2
  | ask =>
    simp only at h ⊢
    obtain ⟨la, e1, h⟩ := bind_ok h
    obtain ⟨lb, f1, f2⟩ := one (.inl rfl) (.inr rfl) (hw a.pcWallet (by simp)) e1 h
    exact bind_go f1 f2

theorem Prep.sendTakeArgs (h : Prep P vs A o o' b ts l x y) {a : SendTakeAccts}
    {r : FeeTier} (hd : ∀ k ∈ a.discount, ∀ z ∈ ts, k.key ≠ z.1 ∧ k.key ≠ z.2.1)
    (e : sendTakeArgs P x.toCore a = .ok r) : Serum.sendTakeArgs P y.toCore a = .ok r := by
  unfold Serum.sendTakeArgs at e ⊢
  rw [h.discount hd]
  obtain ⟨v1, e1, e⟩ := bind_ok e
  obtain ⟨v2, e2, e⟩ := bind_ok e
  obtain ⟨v3, e3, e⟩ := bind_ok e
  obtain ⟨v4, e4, e⟩ := bind_ok e
  obtain ⟨v5, e5, e⟩ := bind_ok e
  obtain ⟨v6, e6, e⟩ := bind_ok e
  obtain ⟨v7, e7, e⟩ := bind_ok e
  obtain ⟨v8, e8, e⟩ := bind_ok e
  obtain ⟨v9, e9, e⟩ := bind_ok e
  obtain ⟨v10, e10, e⟩ := bind_ok e
  obtain ⟨v11, e11, e⟩ := bind_ok e
  obtain ⟨v12, e12, e⟩ := bind_ok e
  obtain ⟨v13, e13, e⟩ := bind_ok e
  obtain ⟨v14, e14, e⟩ := bind_ok e
  have e7 := h.coinWallet e7
  have e8 := h.pcWallet e8
  have e9 := h.coinVault e9
  have e10 := h.pcVault e10
  rw [h.mv.eq] at e7 e8 e9 e10 ⊢
  exact bind_go e1 (bind_go e2 (bind_go e3 (bind_go e4 (bind_go e5 (bind_go e6 (bind_go e7 (bind_go e8 (bind_go e9
    (bind_go e10 (bind_go e11 (bind_go e12 (bind_go e13 (bind_go e14 e)))))))))))))

theorem parseSendTake_parts {accts : List AccMeta} {a : SendTakeAccts} (h : parseSendTake accts = .ok a) :
    a.signer ∈ accts ∧ a.discount = accts.drop 12 ∧ [a.coinWallet, a.pcWallet] = (accts.drop 5).take 2 := by
  unfold parseSendTake at h
  split at h
  · split at h
    · cases h; simp
    · cases h
  · cases h

theorem Prep.sendTake (h : Prep P vs A o o' b ts l x y) {accts : List AccMeta} {ix : SendTakeIx} {x2 : State I}
    (hn : NotVault P x.mkt accts) (hd : ∀ a ∈ accts.drop 12, ∀ z ∈ ts, a.key ≠ z.1 ∧ a.key ≠ z.2.1)
    (hw : ∀ a ∈ (accts.drop 5).take 2, a.key ≠ x.mkt.coinVault ∧ a.key ≠ x.mkt.pcVault) (hp : ix.limitPrice < W64)
    (e : sendTake I P x accts ix = .ok x2) (hc2 : o.coinFree ≤ x2.mkt.coinDeposits) (hp2 : o.pcFree ≤ x2.mkt.pcDeposits)
    {l2 : Ledger} (hl2 : Pays vs ts x2.toks l2) :
    ∃ y2, sendTake I P y accts ix = .ok y2 ∧ Mv (settleShift o b) A o o' l2 x2 y2 := by
  unfold Serum.sendTake at e ⊢
  obtain ⟨a, e1, e⟩ := bind_ok e
  obtain ⟨tier, e2, e⟩ := bind_ok e
  obtain ⟨m1, m2, m3⟩ := parseSendTake_parts e1
  have hargs := h.sendTakeArgs (by rw [m2]; exact hd) e2
  have hsig : a.signer.signer = true := by
    unfold Serum.sendTakeArgs at e2
    obtain ⟨_, _, e2⟩ := bind_ok e2
    obtain ⟨_, _, e2⟩ := bind_ok e2
    obtain ⟨_, e3, e2⟩ := bind_ok e2
    exact checkAssert_ok.1 e3
  have hauth : a.signer.key ≠ vs := fun e' => hn _ m1 hsig (by rw [h.signer, e'])
  unfold sendTakeExec at e
  obtain ⟨⟨ob, rem, i⟩, f5, e⟩ := bind_ok e
  obtain ⟨_, f6, e⟩ := bind_ok e
  obtain ⟨⟨m', d, w⟩, f7, e⟩ := bind_ok e
  obtain ⟨l1, f8, e⟩ := bind_ok e
  cases Except.ok.inj e
  have hob : RG (settleShift o b) (x.ob I x.mkt) (y.ob I y.mkt) := h.mv.ob
  have hid := Refines.orderId_lt (seq := x.seq) ix.side hp
  obtain ⟨⟨ob', r'⟩, g5, hx, hr⟩ := (sh_newOrder hob _ hid _).ok_right f5
  simp only at hx hr
  subst hr
  obtain ⟨t1, t2⟩ := newOrder_totals hid h.coin.2 h.pc.2 f5
  have g7 := totals_mv (b := b) t1 t2 f7 hc2 hp2
  have hk1 := (newOrder_mkt f5).eq
  have h3 : (State.ob I x x.mkt).mkt = x.mkt := rfl
  rw [h3] at hk1
  have h2 : m' = { ob.mkt with coinDeposits := m'.coinDeposits, pcDeposits := m'.pcDeposits } := by
    unfold sendTakeTotals at f7
    split at f7 <;>
    · obtain ⟨_, _, f7⟩ := bind_ok f7
      obtain ⟨_, _, f7⟩ := bind_ok f7
      cases f7
      rfl
  rw [hk1] at h2
  have k1 : m'.ownAddress = x.mkt.ownAddress := by rw [h2]
  have k2 : m'.vaultSignerNonce = x.mkt.vaultSignerNonce := by rw [h2]
  have k3 : m'.coinVault = x.mkt.coinVault := by rw [h2]
  have k4 : m'.pcVault = x.mkt.pcVault := by rw [h2]
  have g8 := transfers_mv (o := o) (b := b) (by rw [k1, k2]; exact h.signer) (by rw [k3, k4]; exact h.two)
    (by rw [k3, k4]; exact h.legs) hauth (by rw [m3, k3, k4]; exact hw) f8 h.pays hl2
  refine ⟨{ y with
    mkt := settleShift o b m'
    seq := y.seq + 1
    toks := l2
    bids := ob'.bids
    asks := ob'.asks
    q := ob'.q }, ?_, ?_, h.mv.acct⟩
  · refine bind_go e1 (bind_go hargs ?_)
    unfold sendTakeExec
    have hl : y.toks = l := by rw [h.mv.eq]; rfl
    have hq : y.seq = x.seq := by rw [h.mv.eq]; rfl
    refine bind_go (a := (ob', rem, i)) (by rw [hq]; exact g5) (bind_go (a := ()) ?_ (bind_go (a := (settleShift o b m', d, w)) ?_
      (bind_go (a := l2) (by rw [hl]; exact g8) rfl)))
    · rw [← hx.pr]; exact f6
    · rw [← hx.pr, hx.mkt]; exact g7
  · rw [h.mv.eq]
    unfold moved
    simp only [← hx.bids, ← hx.asks, ← hx.q]

theorem Prep.settleArgs (h : Prep P vs A o o' b ts l x y) {env : Env} {a : SettleAccts} {r : OpenOrders} (hk : a.oo.key ≠ A)
    (e : settleArgs P env x.toCore a = .ok r) : Serum.settleArgs P env y.toCore a = .ok r := by
  unfold Serum.settleArgs at e ⊢
  obtain ⟨v1, e1, e⟩ := bind_ok e
  obtain ⟨v2, e2, e⟩ := bind_ok e
  obtain ⟨v3, e3, e⟩ := bind_ok e
  obtain ⟨v4, e4, e⟩ := bind_ok e
  obtain ⟨v5, e5, e⟩ := bind_ok e
  obtain ⟨v6, e6, e⟩ := bind_ok e
  obtain ⟨v7, e7, e⟩ := bind_ok e
  obtain ⟨v8, e8, e⟩ := bind_ok e
  obtain ⟨v9, e9, e⟩ := bind_ok e
  have e4 := orAssert_go h.coinVault e4
  have e5 := orAssert_go h.pcVault e5
  have e6 := orAssert_go h.coinWallet e6
  have e7 := orAssert_go h.pcWallet e7
  have e8 : checkReferrer y.toCore a.referrer = .ok v8 := by
    unfold checkReferrer at e8 ⊢
    cases hr : a.referrer with
    | none => rw [hr] at e8
    | some r => rw [hr] at e8; exact orAssert_go h.pcWallet e8
  rw [h.mv.eq] at e4 e5 e6 e7 e8 ⊢
  refine bind_go e1 (bind_go e2 (bind_go e3 (bind_go e4 (bind_go e5 (bind_go e6 (bind_go e7 (bind_go e8 (bind_go e9 ?_))))))))
  rw [loadOrders_mv hk]
  exact e

theorem parseSettle_parts {accts : List AccMeta} {a : SettleAccts} (h : parseSettle accts = .ok a) :
    accts[1]? = some a.oo ∧ a.oo ∈ accts ∧ a.coinVault ∈ accts ∧ a.pcVault ∈ accts ∧ a.coinWallet ∈ accts.drop 5 ∧
    a.pcWallet ∈ accts.drop 5 ∧ (∀ r, a.referrer = some r → r ∈ accts.drop 5 ∧ accts.length = 10) ∧
    (accts.length = 10 → a.referrer.isSome) := by
  unfold parseSettle at h
  split at h
  · cases h; simp
  · cases h; simp
  · cases h

theorem legs_of {m : Market} {accts : List AccMeta} {a : SettleAccts} {o : OpenOrders} (h : parseSettle accts = .ok a)
    (hw : ∀ k ∈ accts.drop 5, k.key ≠ m.coinVault ∧ k.key ≠ m.pcVault) : Legs m.coinVault m.pcVault (payments m a o) := by
  obtain ⟨_, _, _, _, h1, h2, h3, _⟩ := parseSettle_parts h
  intro z hz
  unfold payments at hz
  simp only [List.mem_append, List.mem_cons, List.not_mem_nil, or_false] at hz
  rcases hz with (rfl | rfl) | hz
  · exact ⟨.inl rfl, hw _ h1⟩
  · exact ⟨.inr rfl, hw _ h2⟩
  · cases hr : a.referrer with
    | none => rw [hr] at hz; cases hz
    | some r =>
      rw [hr] at hz
      simp only at hz
      split at hz
      · simp only [List.mem_cons, List.not_mem_nil, or_false] at hz
        subst hz
        exact ⟨.inr rfl, hw _ (h3 r hr).1⟩
      · cases hz

theorem settleShift_comm (p q : OpenOrders) (b c : Bool) (m : Market) :
    settleShift p b (settleShift q c m) = settleShift q c (settleShift p b m) := by
  unfold settleShift
  simp only [wsub_wsub_comm _ p.coinFree, wsub_wsub_comm _ p.pcFree, wsub_wsub_comm _ p.rebates]
  cases b <;> cases c <;> simp [wadd_wadd_comm _ p.rebates]

theorem Prep.settle (h : Prep P vs A o o' b ts l x y) {env : Env} {accts : List AccMeta} {x2 : State I}
    (hk : ∀ a ∈ accts, a.key ≠ A) (hw : ∀ a ∈ accts.drop 5, a.key ≠ x.mkt.coinVault ∧ a.key ≠ x.mkt.pcVault)
    (e : settleFunds I P env x accts = .ok x2) {l2 : Ledger} (hl2 : Pays vs ts x2.toks l2) :
    ∃ y2, settleFunds I P env y accts = .ok y2 ∧ Mv (settleShift o b) A o o' l2 x2 y2 := by
  obtain ⟨a, p, k, vs', h1, h2, h3, h4, h5, h6, rfl⟩ := settle_iff.1 e
  rw [h.signer] at h5
  cases h5
  have hoo := hk _ (parseSettle_parts h1).2.1
  obtain ⟨l', g1, g2⟩ := pays_swap h.two (legs_of h1 hw) h.legs h6 hl2
  rw [Pays.det g1 h.pays] at g2
  refine ⟨_, settle_iff.2 ⟨a, p, l2, vs, h1, h.settleArgs hoo h2, h3, h4, by rw [h.mv.eq]; exact h.signer, ?_, rfl⟩, ?_, ?_⟩
  · rw [h.mv.eq]; exact g2
  · rw [h.mv.eq]
    unfold moved
    simp only
    rw [settleShift_comm, setOo_comm hoo h.mv.acct]
  · show ooAt (setOo x.oos a.oo.key _) A = _
    rw [ooAt_setOo, if_neg (Ne.symm hoo)]
    exact h.mv.acct

theorem Prep.sweep (h : Prep P vs A o o' b ts l x y) {accts : List AccMeta} {x2 : State I}
    (hw : ∀ a ∈ (accts.drop 3).take 1, a.key ≠ x.mkt.coinVault ∧ a.key ≠ x.mkt.pcVault) (hf : x.mkt.pcFees < W64)
    (hb : b = true ∨ o.rebates = 0)
    (e : sweepFees I P x accts = .ok x2) {l2 : Ledger} (hl2 : Pays vs ts x2.toks l2) :
    ∃ y2, sweepFees I P y accts = .ok y2 ∧ Mv (settleShift o b) A o o' l2 x2 y2 := by
  unfold sweepFees at e ⊢
  split at e
  · rename_i m pv auth w v t
    obtain ⟨v1, e1, e⟩ := bind_ok e
    obtain ⟨v2, e2, e⟩ := bind_ok e
    obtain ⟨v3, e3, e⟩ := bind_ok e
    obtain ⟨v4, e4, e⟩ := bind_ok e
    obtain ⟨v5, e5, e⟩ := bind_ok e
    obtain ⟨v6, e6, e⟩ := bind_ok e
    obtain ⟨v7, e7, e⟩ := bind_ok e
    obtain ⟨l1, e8, e⟩ := bind_ok e
    cases Except.ok.inj e
    obtain ⟨vs', hs', e8⟩ := send_iff.1 e8
    rw [h.signer] at hs'
    cases hs'
    obtain ⟨lc, g3, g4⟩ := pays_swap_out (.inr rfl) (hw w (by simp)) h.two h.legs e8 hl2
    rw [Pays.det g3 h.pays] at g4
    have e2 := h.pcVault e2
    have e3 := h.pcWallet e3
    have hfee : (settleShift o b x.mkt).pcFees = x.mkt.pcFees := by
      rcases hb with hb | hb
      · rw [hb]; rfl
      · unfold settleShift
        cases b
        · show wadd _ _ = _
          rw [hb, wadd_eq (by omega)]; rfl
        · rfl
    refine ⟨{ y with mkt := { y.mkt with pcFees := 0 }, toks := l2 }, ?_, ?_, h.mv.acct⟩
    · rw [h.mv.eq] at e2 e3 ⊢
      refine bind_go e1 (bind_go e2 (bind_go e3 (bind_go e4 (bind_go e5 (bind_go e6 (bind_go e7 (bind_go (a := l2)
        (send_iff.2 ⟨vs, h.signer, ?_⟩) rfl)))))))
      show splTransfer l x.mkt.pcVault w.key vs (settleShift o b x.mkt).pcFees = .ok l2
      rw [hfee]
      exact g4
    · rw [h.mv.eq]
      unfold moved settleShift
      rcases hb with hb | hb
      · simp [hb]
      · simp only [hb]
        cases b <;> rfl
  · cases e

end loud

/-! ### C99: the theorem -/

/-- The accounts an instruction may pay tokens to. -/
def payees : Instruction → List AccMeta → List AccMeta
  | .settleFunds, l => l.drop 5
  | .sendTake _, l => (l.drop 5).take 2
  | .sweepFees, l => (l.drop 3).take 1
  | _, _ => []

/-- The accounts read for a fee discount. -/
def discounts : Instruction → List AccMeta → List AccMeta
  | .newOrderV3 _, l | .sendTake _, l | .replaceOrderByClientId _, l | .replaceOrdersByClientIds _, l => l.drop 12
  | _, _ => []

/-- An instruction apart from a settlement of the account `A` by `sacc`: it does not name `A`, it pays no vault,
it reads no fee discount off an account of the settlement; and if it sweeps the fees then the settlement does not
add to them, having no rebates to pass on or a referrer to pass them to. -/
structure NotMixed (s : State conc) (A : Nat) (sacc accts : List AccMeta) (ix : Instruction) : Prop where
  unnamed : ∀ a ∈ accts, a.key ≠ A
  noVault : ∀ a ∈ payees ix accts, a.key ≠ s.mkt.coinVault ∧ a.key ≠ s.mkt.pcVault
  discount : ∀ a ∈ discounts ix accts, ∀ k ∈ sacc, a.key ≠ k.key
  sweep : ix = .sweepFees → sacc.length = 10 ∨ ∀ o, ooAt s.oos A = some o → o.rebates = 0

theorem prep_of {P : Params} {vs A : Nat} {o o' : OpenOrders} {b : Bool} {ts : List (Nat × Nat × Nat)} {l : Ledger}
    {x y : State conc} (hr : Reach P x) (hq : x.seq ≤ W64) (hm : Mv (settleShift o b) A o o' l x y)
    (hs : P.vaultSigner x.mkt.ownAddress x.mkt.vaultSignerNonce = some vs)
    (hl : Legs x.mkt.coinVault x.mkt.pcVault ts) (hp : Pays vs ts x.toks l) : Prep P vs A o o' b ts l x y := by
  obtain ⟨vs', hv, _, hi⟩ := hr.view hq
  rw [hs] at hv
  cases hv
  obtain ⟨_, _, t1, t2⟩ := totals_are_backed hr hq hm.acct
  have c1 := coin_backed hi.funds
  have c2 := pc_backed hi.funds
  exact ⟨hm, hs, ⟨hi.funds.coin, hi.funds.pc⟩, hl, hp, ⟨by omega, c1⟩, ⟨by omega, by omega⟩⟩

theorem Keeps.vaults {I : Impl} {s s' : State I} (h : Keeps s s') :
    s'.mkt.coinVault = s.mkt.coinVault ∧ s'.mkt.pcVault = s.mkt.pcVault := by
  have := h.eq
  constructor <;> rw [this]

theorem newOrders_any {P : Params} {vs A : Nat} {o o' : OpenOrders} {b : Bool} {ts : List (Nat × Nat × Nat)}
    {env : Env} {accts : List AccMeta} (hk : ∀ a ∈ accts, a.key ≠ A)
    (hd : ∀ a ∈ accts.drop 12, ∀ z ∈ ts, a.key ≠ z.1 ∧ a.key ≠ z.2.1) {ixs : List NewOrderIx} :
    ∀ {l : Ledger} {x y x2 : State conc}, Reach P x → NotVault P x.mkt accts → (∀ ix ∈ ixs, OrderValid ix) →
    x2.seq ≤ W64 → Prep P vs A o o' b ts l x y → newOrders conc P env x accts ixs = .ok x2 →
    ∃ l2 y2, newOrders conc P env y accts ixs = .ok y2 ∧ Pays vs ts x2.toks l2 ∧ Mv (settleShift o b) A o o' l2 x2 y2 := by
  induction ixs with
  | nil =>
    intro l x y x2 hr hn hv hq hp h
    cases h
    exact ⟨l, y, rfl, hp.pays, hp.mv⟩
  | cons ix ixs ih =>
    intro l x y x2 hr hn hv hq hp h
    unfold newOrders at h ⊢
    obtain ⟨x1, h1, h⟩ := bind_ok h
    have hx := hv ix (by simp)
    obtain ⟨l1, y1, g1, g2, g3⟩ := hp.newOrder hk hn hd hx.1.2 h1
    have k1 := (newOrderV3_keeps h1).1
    have k2 := (newOrders_keeps h).1
    have hr1 := place_reach hr hn hx h1
    obtain ⟨v1, v2⟩ := Keeps.vaults k1
    obtain ⟨l2, y2, f1, f2, f3⟩ := ih hr1 (hn.keeps k1) (fun i hi => hv i (by simp [hi])) hq
      (prep_of hr1 (Nat.le_trans k2.seq hq) g3 (by rw [k1.own.1, k1.own.2]; exact hp.signer)
        (by rw [v1, v2]; exact hp.legs) g2) h
    exact ⟨l2, y2, bind_go g1 f1, f2, f3⟩

theorem replace_any {P : Params} {vs A : Nat} {o o' : OpenOrders} {b : Bool} {ts : List (Nat × Nat × Nat)}
    {env : Env} {accts : List AccMeta} (hk : ∀ a ∈ accts, a.key ≠ A)
    (hd : ∀ a ∈ accts.drop 12, ∀ z ∈ ts, a.key ≠ z.1 ∧ a.key ≠ z.2.1) {ixs : List NewOrderIx}
    {l : Ledger} {x y x2 : State conc} (hr : Reach P x) (hn : NotVault P x.mkt accts) (hlen : ixs.length ≤ 8)
    (hv : ∀ ix ∈ ixs, OrderValid ix) (hq : x2.seq ≤ W64) (hp : Prep P vs A o o' b ts l x y)
    (h : replaceOrders conc P env x accts ixs = .ok x2) :
    ∃ l2 y2, replaceOrders conc P env y accts ixs = .ok y2 ∧ Pays vs ts x2.toks l2 ∧
      Mv (settleShift o b) A o o' l2 x2 y2 := by
  obtain ⟨ca, x1, h1, hs, h2, hr1, hn1, h3⟩ := replace_parts hr hn hlen hv h
  obtain ⟨y1, g1, g2⟩ := Sim.ok_right (mv_cancelByClientIds hp.mv (fun a ha => hk a (hs ha)) env _) h2
  obtain ⟨k1, _, k2, k3⟩ := cancelByClientIds_keeps h2
  have k4 := (newOrders_keeps h3).1
  obtain ⟨l2, y2, f1, f2, f3⟩ := newOrders_any hk hd hr1 hn1 hv hq
    (prep_of hr1 (Nat.le_trans k4.seq hq) g2 (by rw [k2]; exact hp.signer) (by rw [k2]; exact hp.legs)
      (by rw [k3]; exact hp.pays)) h3
  refine ⟨l2, y2, ?_, f2, f3⟩
  unfold replaceOrders
  refine bind_go h1 (bind_go (a := y1) ?_ f1)
  rw [List.take_of_length_le (by simpa using hlen)]
  exact g1

theorem vaults_named {P : Params} {env : Env} {c : Core} {a : SettleAccts} {o : OpenOrders}
    (h : settleArgs P env c a = .ok o) : a.coinVault.key = c.mkt.coinVault ∧ a.pcVault.key = c.mkt.pcVault ∧
      ooAt c.oos a.oo.key = some o := by
  unfold settleArgs at h
  obtain ⟨_, _, h⟩ := bind_ok h
  obtain ⟨_, _, h⟩ := bind_ok h
  obtain ⟨_, _, h⟩ := bind_ok h
  obtain ⟨_, e4, h⟩ := bind_ok h
  obtain ⟨_, e5, h⟩ := bind_ok h
  obtain ⟨_, _, h⟩ := bind_ok h
  obtain ⟨_, _, h⟩ := bind_ok h
  obtain ⟨_, _, h⟩ := bind_ok h
  obtain ⟨_, _, h⟩ := bind_ok h
  have or : ∀ {x : Except Err Unit} {u : Unit}, orAssert x = .ok u → x = .ok u := by
    intro x u h
    unfold orAssert at h
    split at h
    · exact h
    · cases h
  have e4 := or e4
  have e5 := or e5
  unfold coinVault at e4
  unfold pcVault at e5
  obtain ⟨_, _, e4⟩ := bind_ok e4
  obtain ⟨_, _, e5⟩ := bind_ok e5
  refine ⟨?_, ?_, (loadOrders_stored h).1⟩
  · split at e4
    · cases e4
    · rename_i e; simpa using e
  · split at e5
    · cases e5
    · rename_i e; simpa using e

theorem sendTake_oos {I : Impl} {P : Params} {s s' : State I} {accts : List AccMeta} {ix : SendTakeIx}
    (h : sendTake I P s accts ix = .ok s') : s'.oos = s.oos := by
  unfold sendTake at h
  obtain ⟨_, _, h⟩ := bind_ok h
  obtain ⟨_, _, h⟩ := bind_ok h
  unfold sendTakeExec at h
  obtain ⟨_, _, h⟩ := bind_ok h
  obtain ⟨_, _, h⟩ := bind_ok h
  obtain ⟨_, _, h⟩ := bind_ok h
  obtain ⟨_, _, h⟩ := bind_ok h
  cases Except.ok.inj h
  rfl

theorem sweep_oos {I : Impl} {P : Params} {s s' : State I} {accts : List AccMeta}
    (h : sweepFees I P s accts = .ok s') : s'.oos = s.oos := by
  unfold sweepFees at h
  split at h
  · obtain ⟨_, _, h⟩ := bind_ok h
    obtain ⟨_, _, h⟩ := bind_ok h
    obtain ⟨_, _, h⟩ := bind_ok h
    obtain ⟨_, _, h⟩ := bind_ok h
    obtain ⟨_, _, h⟩ := bind_ok h
    obtain ⟨_, _, h⟩ := bind_ok h
    obtain ⟨_, _, h⟩ := bind_ok h
    obtain ⟨_, _, h⟩ := bind_ok h
    cases Except.ok.inj h
    rfl
  · cases h

theorem closeOpenOrders_toks {I : Impl} {env : Env} {s s' : State I} {accts : List AccMeta}
    (h : closeOpenOrders I env s accts = .ok s') : s'.toks = s.toks := by
  unfold closeOpenOrders at h
  split at h
  · obtain ⟨_, _, h⟩ := bind_ok h
    obtain ⟨_, _, h⟩ := bind_ok h
    obtain ⟨_, _, h⟩ := bind_ok h
    obtain ⟨_, _, h⟩ := bind_ok h
    cases Except.ok.inj h
    rfl
  · cases h

theorem wait_core {P : Params} {env1 env2 env' : Env} {s s1 s2 s3 : State conc} {sacc accts : List AccMeta}
    {ix : Instruction} {A : Nat} (hr : Reach P s) (hq : s2.seq ≤ W64) (hv : IxValid ix) (hn : NotVault P s.mkt accts)
    (hA : (sacc[1]?).map (·.key) = some A)
    (hw : ∀ a ∈ sacc.drop 5, a.key ≠ s.mkt.coinVault ∧ a.key ≠ s.mkt.pcVault)
    (hp : NotMixed s A sacc accts ix)
    (h1 : process conc P env1 s sacc .settleFunds = .ok s1)
    (h2 : process conc P env' s accts ix = .ok s2)
    (h3 : process conc P env2 s2 sacc .settleFunds = .ok s3) :
    process conc P env' s1 accts ix = .ok s3 ∧ ooAt s2.oos A = ooAt s.oos A := by
  have hk := process_keeps h2
  have hr2 := hr.act hv hn h2
  obtain ⟨v1, v2⟩ := Keeps.vaults hk
  obtain ⟨a, o, l, vs, e1, e2, _, _, e5, e6, hs1⟩ := settle_iff.1 h1
  obtain ⟨a', p, l2, vs', f1, f2, _, _, f5, f6, hs3⟩ := settle_iff.1 h3
  rw [e1] at f1
  cases f1
  rw [hk.own.1, hk.own.2, e5] at f5
  cases f5
  obtain ⟨p1, _, p3, p4, p5, p6, p7, p8⟩ := parseSettle_parts e1
  rw [p1] at hA
  have hA : a.oo.key = A := by simpa using hA
  subst hA
  obtain ⟨n1, n2, ho⟩ := vaults_named e2
  obtain ⟨_, _, hp'⟩ := vaults_named f2
  have hx := hp.unnamed
  have hl := legs_of (o := o) e1 hw
  have prep := prep_of (b := refPaid a o) (o' := paidOo o) hr (Nat.le_trans hk.seq hq) ⟨hs1, ho⟩ e5 hl e6
  have hd : ∀ k ∈ discounts ix accts, ∀ z ∈ payments s.mkt a o, k.key ≠ z.1 ∧ k.key ≠ z.2.1 := by
    intro k hk z hz
    have hd := hp.discount k hk
    have d1 : k.key ≠ s.mkt.coinVault := by rw [← n1]; exact hd _ p3
    have d2 : k.key ≠ s.mkt.pcVault := by rw [← n2]; exact hd _ p4
    unfold payments at hz
    simp only [List.mem_append, List.mem_cons, List.not_mem_nil, or_false] at hz
    rcases hz with (rfl | rfl) | hz
    · exact ⟨d1, hd _ (List.mem_of_mem_drop p5)⟩
    · exact ⟨d2, hd _ (List.mem_of_mem_drop p6)⟩
    · cases hr : a.referrer with
      | none => rw [hr] at hz; cases hz
      | some r =>
        rw [hr] at hz
        simp only at hz
        split at hz
        · simp only [List.mem_cons, List.not_mem_nil, or_false] at hz
          subst hz
          exact ⟨d2, hd _ (List.mem_of_mem_drop (p7 r hr).1)⟩
        · cases hz
  -- whatever the instruction, the two ends are related by the settlement; and that settlement is the later one
  have done : ∀ {k : Ledger} {y : State conc}, Pays vs (payments s.mkt a o) s2.toks k →
      Mv (settleShift o (refPaid a o)) a.oo.key o (paidOo o) k s2 y → y = s3 ∧ ooAt s2.oos a.oo.key = ooAt s.oos a.oo.key := by
    intro k y hk hm
    have hop := hm.acct
    rw [hp'] at hop
    cases Option.some.inj hop
    have hpay : payments s2.mkt a o = payments s.mkt a o := by unfold payments; rw [v1, v2]
    rw [hpay] at f6
    refine ⟨?_, hm.acct.trans ho.symm⟩
    rw [hm.eq, hs3, Pays.det hk f6]
  have quiet : ∀ {z : Except Err (State conc)}, s2.toks = s.toks →
      Sim (Mv (settleShift o (refPaid a o)) a.oo.key o (paidOo o) l) (.ok s2) z →
      z = .ok s3 ∧ ooAt s2.oos a.oo.key = ooAt s.oos a.oo.key := by
    intro z ht hz
    obtain ⟨y, g1, g2⟩ := Sim.ok_right hz rfl
    obtain ⟨d1, d2⟩ := done (by rw [ht]; exact e6) g2
    exact ⟨by rw [g1, d1], d2⟩
  -- the later settlement, once the account is known to be the same
  have late : ooAt s2.oos a.oo.key = some o → Pays vs (payments s.mkt a o) s2.toks l2 ∧
      o.coinFree ≤ s2.mkt.coinDeposits ∧ o.pcFree ≤ s2.mkt.pcDeposits := by
    intro hoo
    rw [hp'] at hoo
    cases hoo
    obtain ⟨_, _, t1, t2⟩ := totals_are_backed hr2 hq hp'
    have hpay : payments s2.mkt a o = payments s.mkt a o := by unfold payments; rw [v1, v2]
    rw [hpay] at f6
    exact ⟨f6, by omega, by omega⟩
  have hnv := hp.noVault
  cases ix with
  | initializeMarket _ => cases h2
  | newOrder _ => cases h2
  | matchOrders _ =>
    cases h2
    have hop := hp'
    rw [ho] at hop
    cases Option.some.inj hop
    have hd := done f6 ⟨rfl, hp'⟩
    refine ⟨?_, rfl⟩
    show Except.ok s1 = Except.ok s3
    rw [hs1, ← hd.1, Pays.det e6 f6]
  | consumeEvents n =>
    have h2 : consumeEvents conc P env' s accts n = .ok s2 := h2
    refine quiet (consumeEvents_keeps h2).2.2.2.1 ?_
    rw [← h2]
    exact mv_consumeEvents prep.mv P env' hx n
  | cancelOrder => cases h2
  | settleFunds =>
    have h2 : settleFunds conc P env' s accts = .ok s2 := h2
    have hoo : ooAt s2.oos a.oo.key = some o := by
      obtain ⟨b, q, k, w, g1, _, _, _, _, _, rfl⟩ := settle_iff.1 h2
      show ooAt (setOo s.oos b.oo.key _) a.oo.key = _
      rw [ooAt_setOo, if_neg (Ne.symm (hx _ (parseSettle_parts g1).2.1))]
      exact ho
    obtain ⟨y2, g1, g2⟩ := prep.settle hx hnv h2 (late hoo).1
    obtain ⟨d1, d2⟩ := done (late hoo).1 g2
    refine ⟨?_, d2⟩
    show settleFunds conc P env' s1 accts = .ok s3
    rw [g1, d1]
  | cancelOrderByClientId _ => cases h2
  | disableMarket =>
    have h2 : disableMarket conc P s accts = .ok s2 := h2
    have ht : s2.toks = s.toks := by
      obtain ⟨_, _, _, _, _, _, rfl⟩ := disable_inv h2
      rfl
    refine quiet ht ?_
    rw [← h2]
    exact mv_disable prep.mv P accts
  | sweepFees =>
    have h2 : sweepFees conc P s accts = .ok s2 := h2
    have hoo : ooAt s2.oos a.oo.key = some o := by rw [sweep_oos h2]; exact ho
    have hf : s.mkt.pcFees < W64 := by
      obtain ⟨vs', _, _, hi⟩ := hr.view (Nat.le_trans hk.seq hq)
      have := pc_backed hi.funds
      omega
    have hb : refPaid a o = true ∨ o.rebates = 0 := by
      by_cases h0 : o.rebates = 0
      · exact .inr h0
      · left
        rcases hp.sweep rfl with h | h
        · unfold refPaid
          rw [p8 h]
          simp
          omega
        · exact absurd (h o ho) h0
    obtain ⟨y2, g1, g2⟩ := prep.sweep hnv hf hb h2 (late hoo).1
    obtain ⟨d1, d2⟩ := done (late hoo).1 g2
    refine ⟨?_, d2⟩
    show sweepFees conc P s1 accts = .ok s3
    rw [g1, d1]
  | newOrderV2 => cases h2
  | newOrderV3 i =>
    have h2 : newOrderV3 conc P env' s accts i = .ok s2 := h2
    obtain ⟨k, y2, g1, g2, g3⟩ := prep.newOrder hx hn hd (show i.limitPrice < W64 from hv.1.2) h2
    obtain ⟨d1, d2⟩ := done g2 g3
    refine ⟨?_, d2⟩
    show newOrderV3 conc P env' s1 accts i = .ok s3
    rw [g1, d1]
  | cancelOrderV2 sd id =>
    have h2 : cancelV2 conc env' s accts sd id = .ok s2 := h2
    refine quiet (cancelV2_keeps h2).2.2.2 ?_
    rw [← h2]
    exact mv_cancelV2 prep.mv hx env' sd id
  | cancelOrderByClientIdV2 c =>
    have h2 : cancelByClientIdV2 conc env' s accts c = .ok s2 := h2
    refine quiet (cancelByClientIdV2_keeps h2).2.2.2 ?_
    rw [← h2]
    exact mv_cancelByClientIdV2 prep.mv hx env' c
  | sendTake i =>
    have h2 : sendTake conc P s accts i = .ok s2 := h2
    have hoo : ooAt s2.oos a.oo.key = some o := by rw [sendTake_oos h2]; exact ho
    obtain ⟨l1, l2, l3⟩ := late hoo
    obtain ⟨y2, g1, g2⟩ := prep.sendTake hn hd hnv (show i.limitPrice < W64 from hv.1.2) h2 l2 l3 l1
    obtain ⟨d1, d2⟩ := done l1 g2
    refine ⟨?_, d2⟩
    show sendTake conc P s1 accts i = .ok s3
    rw [g1, d1]
  | closeOpenOrders =>
    have h2 : closeOpenOrders conc env' s accts = .ok s2 := h2
    refine quiet (closeOpenOrders_toks h2) ?_
    rw [← h2]
    exact mv_close prep.mv env' hx
  | initOpenOrders =>
    have h2 : initOpenOrders conc env' s accts = .ok s2 := h2
    have ht : s2.toks = s.toks := by
      obtain ⟨_, _, _, _, _, _, _, _, h | h⟩ := init_inv h2
      · rw [h.1]
      · rw [h.1]
    refine quiet ht ?_
    rw [← h2]
    exact mv_init prep.mv env' hx
  | prune n =>
    have h2 : Serum.prune conc env' s accts n = .ok s2 := h2
    refine quiet (prune_keeps h2).2.2.2 ?_
    rw [← h2]
    exact mv_prune prep.mv env' hx n
  | consumeEventsPermissioned n =>
    have h2 : consumeEventsPermissioned conc P env' s accts n = .ok s2 := h2
    refine quiet (consumePermissioned_keeps h2).2.2.2.1 ?_
    rw [← h2]
    exact mv_consumeEventsPermissioned prep.mv P env' hx n
  | cancelOrdersByClientIds ids =>
    have h2 : cancelByClientIds conc env' s accts ids = .ok s2 := h2
    refine quiet (cancelByClientIds_keeps h2).2.2.2 ?_
    rw [← h2]
    exact mv_cancelByClientIds prep.mv hx env' ids
  | replaceOrderByClientId i =>
    have h2 : replaceOrders conc P env' s accts [i] = .ok s2 := h2
    obtain ⟨k, y2, g1, g2, g3⟩ := replace_any hx hd hr hn (by simp)
      (by intro j hj; simp only [List.mem_cons, List.not_mem_nil, or_false] at hj; subst hj; exact hv) hq prep h2
    obtain ⟨d1, d2⟩ := done g2 g3
    refine ⟨?_, d2⟩
    show replaceOrders conc P env' s1 accts [i] = .ok s3
    rw [g1, d1]
  | replaceOrdersByClientIds is =>
    have h2 : replaceOrders conc P env' s accts is = .ok s2 := h2
    obtain ⟨k, y2, g1, g2, g3⟩ := replace_any hx hd hr hn hv.1 hv.2 hq prep h2
    obtain ⟨d1, d2⟩ := done g2 g3
    refine ⟨?_, d2⟩
    show replaceOrders conc P env' s1 accts is = .ok s3
    rw [g1, d1]

/-- C99. Let a settlement of one account succeed now, let some other instruction succeed now, and let the same
settlement succeed after it. Then the instruction also succeeds after the settlement, and the two orders of doing
things end in the same state: same books, same queue, same accounts, same market record, same token balances. -/
theorem settling_can_wait {P : Params} {env1 env2 env' : Env} {s s1 s2 s3 : State conc} {sacc accts : List AccMeta}
    {ix : Instruction} {A : Nat} (hr : Reach P s) (hq : s2.seq ≤ W64) (hv : IxValid ix) (hn : NotVault P s.mkt accts)
    (hA : (sacc[1]?).map (·.key) = some A)
    (hw : ∀ a ∈ sacc.drop 5, a.key ≠ s.mkt.coinVault ∧ a.key ≠ s.mkt.pcVault)
    (hp : NotMixed s A sacc accts ix)
    (h1 : process conc P env1 s sacc .settleFunds = .ok s1)
    (h2 : process conc P env' s accts ix = .ok s2)
    (h3 : process conc P env2 s2 sacc .settleFunds = .ok s3) :
    process conc P env' s1 accts ix = .ok s3 :=
  (wait_core hr hq hv hn hA hw hp h1 h2 h3).1

/-- An instruction sent to the market. -/
structure Call where
  env : Env
  accts : List AccMeta
  ix : Instruction

/-- Instructions one after another, all of which must succeed. -/
def perform (P : Params) : State conc → List Call → Except Err (State conc)
  | s, [] => .ok s
  | s, c :: cs =>
    match process conc P c.env s c.accts c.ix with
    | .ok s' => perform P s' cs
    | .error e => .error e

theorem perform_seq {P : Params} {cs : List Call} : ∀ {s t : State conc}, perform P s cs = .ok t → s.seq ≤ t.seq := by
  induction cs with
  | nil => intro s t h; cases Except.ok.inj h; exact Nat.le_refl _
  | cons c cs ih =>
    intro s t h
    unfold perform at h
    split at h
    · rename_i s' e
      exact Nat.le_trans (process_keeps e).seq (ih h)
    · cases h

/-- C99, any number of instructions. If an account could be settled at each moment of a sequence of other
instructions, then settling it at the start and settling it at the end lead to the same state. -/
theorem settle_first_or_last {P : Params} {sacc : List AccMeta} {A : Nat} (hA : (sacc[1]?).map (·.key) = some A)
    {cs : List Call} : ∀ {s s1 t : State conc} {env : Env}, Reach P s → t.seq ≤ W64 →
    (∀ a ∈ sacc.drop 5, a.key ≠ s.mkt.coinVault ∧ a.key ≠ s.mkt.pcVault) →
    (∀ c ∈ cs, IxValid c.ix ∧ NotVault P s.mkt c.accts ∧ NotMixed s A sacc c.accts c.ix) →
    process conc P env s sacc .settleFunds = .ok s1 →
    perform P s cs = .ok t →
    (∀ pre post u, cs = pre ++ post → perform P s pre = .ok u →
      ∃ env v, process conc P env u sacc .settleFunds = .ok v) →
    ∃ env t', process conc P env t sacc .settleFunds = .ok t' ∧ perform P s1 cs = .ok t' := by
  induction cs with
  | nil =>
    intro s s1 t env hr hq hw hc h1 h2 h3
    cases Except.ok.inj h2
    exact ⟨env, s1, h1, rfl⟩
  | cons c cs ih =>
    intro s s1 t env hr hq hw hc h1 h2 h3
    have h2' := h2
    unfold perform at h2
    split at h2
    · rename_i s2 e
      obtain ⟨hv, hn, hp⟩ := hc c (by simp)
      obtain ⟨env2, s3, h4⟩ := h3 [c] cs s2 rfl (by unfold perform; rw [e]; rfl)
      have hk := process_keeps e
      obtain ⟨v1, v2⟩ := Keeps.vaults hk
      obtain ⟨g1, g2⟩ := wait_core hr (Nat.le_trans (perform_seq h2) hq) hv hn hA hw hp h1 e h4
      obtain ⟨env3, t', f1, f2⟩ := ih (hr.act hv hn e) hq (by rw [v1, v2]; exact hw)
        (fun d hd => by
          obtain ⟨a1, a2, a3⟩ := hc d (by simp [hd])
          refine ⟨a1, a2.keeps hk, a3.unnamed, ?_, a3.discount, ?_⟩
          · rw [v1, v2]; exact a3.noVault
          · rw [g2]; exact a3.sweep)
        h4 h2 (fun pre post u hu hpre => h3 (c :: pre) post u (by rw [hu]; rfl) (by unfold perform; rw [e]; exact hpre))
      refine ⟨env3, t', f1, ?_⟩
      unfold perform
      rw [g1]
      exact f2
    · cases h2

/-- C99, two accounts. Which of two accounts is settled first makes no difference. -/
theorem settlements_commute {P : Params} {env env' : Env} {s s1 s2 s3 : State conc} {sacc tacc : List AccMeta} {A : Nat}
    (hr : Reach P s) (hq : s.seq ≤ W64) (hn : NotVault P s.mkt tacc)
    (hA : (sacc[1]?).map (·.key) = some A) (hne : ∀ a ∈ tacc, a.key ≠ A)
    (hw : ∀ a ∈ sacc.drop 5 ++ tacc.drop 5, a.key ≠ s.mkt.coinVault ∧ a.key ≠ s.mkt.pcVault)
    (h1 : process conc P env s sacc .settleFunds = .ok s1)
    (h2 : process conc P env' s tacc .settleFunds = .ok s2)
    (h3 : process conc P env s2 sacc .settleFunds = .ok s3) :
    process conc P env' s1 tacc .settleFunds = .ok s3 := by
  have hs : s2.seq = s.seq := by
    obtain ⟨b, q, k, w, _, _, _, _, _, _, rfl⟩ := settle_iff.1 h2
    rfl
  refine settling_can_wait hr (by omega) trivial hn hA (fun a ha => hw a (by simp [ha])) ⟨hne, ?_, ?_, ?_⟩ h1 h2 h3
  · intro a ha; exact hw a (List.mem_append.2 (.inr ha))
  · intro a ha; cases ha
  · intro h; cases h

-- 12's account 42 can be settled, with a referrer, before and after each of: an order by 11 against which nothing
-- matches, a settlement of 11's account and a sweep of the fees; all of these change the state
end Serum.Props

namespace Serum.Demo
open Props
def wait0 : List AccMeta := settleAccts 42 12 22 32 [acc 33]
def wait1 : State conc := run s4 a1 (.newOrderV3 (order .ask 2000 2 1 17))
def wait2 : State conc := run wait1 (settleAccts 41 11 21 31 []) .settleFunds
def wait3 : State conc := run wait2 sweepAccts .sweepFees
def waitCalls : List Call :=
  [⟨env, a1, .newOrderV3 (order .ask 2000 2 1 17)⟩, ⟨env, settleAccts 41 11 21 31 [], .settleFunds⟩,
    ⟨env, sweepAccts, .sweepFees⟩]

theorem waitApart (ix : Instruction) (l : List AccMeta) (h : (l.all fun a => a.key != 42) = true)
    (h1 : ((payees ix l).all fun a => a.key != 51 && a.key != 52) = true) (h2 : discounts ix l = []) :
    NotMixed s4 42 wait0 l ix := by
  refine ⟨fun a ha => by simpa using List.all_eq_true.1 h a ha, ?_, by rw [h2]; simp, fun _ => .inl rfl⟩
  intro a ha
  have e1 : s4.mkt.coinVault = 51 := by decide +kernel
  have e2 : s4.mkt.pcVault = 52 := by decide +kernel
  rw [e1, e2]
  simpa using List.all_eq_true.1 h1 a ha

example : (wait0[1]?).map (·.key) = some 42 ∧ Reach P s4 ∧ wait3.seq ≤ W64 ∧
    (∀ a ∈ wait0.drop 5, a.key ≠ s4.mkt.coinVault ∧ a.key ≠ s4.mkt.pcVault) ∧
    (∀ c ∈ waitCalls, IxValid c.ix ∧ NotVault P s4.mkt c.accts ∧ NotMixed s4 42 wait0 c.accts c.ix) ∧
    process conc P env s4 wait0 .settleFunds = .ok (run s4 wait0 .settleFunds) ∧
    perform P s4 waitCalls = .ok wait3 ∧
    (∀ pre post u, waitCalls = pre ++ post → perform P s4 pre = .ok u →
      ∃ env v, process conc P env u wait0 .settleFunds = .ok v) ∧
    (s4.toks 22).map (·.amount) ≠ ((run s4 wait0 .settleFunds).toks 22).map (·.amount) ∧
    (s4.asks.contents.length, wait1.asks.contents.length) = (1, 2) ∧
    (wait1.toks 31).map (·.amount) ≠ (wait2.toks 31).map (·.amount) ∧ wait2.mkt.pcFees ≠ 0 := by
  have f1 : process conc P env s4 a1 (.newOrderV3 (order .ask 2000 2 1 17)) = .ok wait1 := run_eq (by decide +kernel)
  have f2 : process conc P env wait1 (settleAccts 41 11 21 31 []) .settleFunds = .ok wait2 := run_eq (by decide +kernel)
  have f3 : process conc P env wait2 sweepAccts .sweepFees = .ok wait3 := run_eq (by decide +kernel)
  refine ⟨rfl, r4, by decide +kernel, ?_, ?_, run_eq (by decide +kernel), ?_, ?_, by decide +kernel, by decide +kernel,
    by decide +kernel, by decide +kernel⟩
  · have e1 : s4.mkt.coinVault = 51 := by decide +kernel
    have e2 : s4.mkt.pcVault = 52 := by decide +kernel
    rw [e1, e2]
    intro a ha
    have := List.all_eq_true.1 (show ((wait0.drop 5).all fun a => a.key != 51 && a.key != 52) = true by decide) a ha
    simpa using this
  · intro c hc
    simp only [waitCalls, List.mem_cons, List.not_mem_nil, or_false] at hc
    rcases hc with rfl | rfl | rfl
    · exact ⟨valid (by decide), notVault _ (by decide), waitApart _ _ (by decide) (by decide) rfl⟩
    · exact ⟨trivial, notVault _ (by decide), waitApart _ _ (by decide) (by decide) rfl⟩
    · exact ⟨trivial, notVault _ (by decide), waitApart _ _ (by decide) (by decide) rfl⟩
  · simp only [waitCalls, perform, f1, f2, f3]
  · intro pre post u hp hu
    have g0 : process conc P env s4 wait0 .settleFunds = .ok (run s4 wait0 .settleFunds) := run_eq (by decide +kernel)
    have g1 : process conc P env wait1 wait0 .settleFunds = .ok (run wait1 wait0 .settleFunds) := run_eq (by decide +kernel)
    have g2 : process conc P env wait2 wait0 .settleFunds = .ok (run wait2 wait0 .settleFunds) := run_eq (by decide +kernel)
    have g3 : process conc P env wait3 wait0 .settleFunds = .ok (run wait3 wait0 .settleFunds) := run_eq (by decide +kernel)
    match pre, hp, hu with
    | [], _, hu => cases Except.ok.inj hu; exact ⟨_, _, g0⟩
    | [_], hp, hu =>
      simp only [waitCalls, List.cons_append, List.nil_append, List.cons.injEq] at hp
      rw [← hp.1] at hu
      simp only [perform, f1] at hu
      cases Except.ok.inj hu; exact ⟨_, _, g1⟩
    | [_, _], hp, hu =>
      simp only [waitCalls, List.cons_append, List.nil_append, List.cons.injEq] at hp
      rw [← hp.1, ← hp.2.1] at hu
      simp only [perform, f1, f2] at hu
      cases Except.ok.inj hu; exact ⟨_, _, g2⟩
    | [_, _, _], hp, hu =>
      simp only [waitCalls, List.cons_append, List.nil_append, List.cons.injEq] at hp
      rw [← hp.1, ← hp.2.1, ← hp.2.2.1] at hu
      simp only [perform, f1, f2, f3] at hu
      cases Except.ok.inj hu; exact ⟨_, _, g3⟩
    | _ :: _ :: _ :: _ :: _, hp, _ => simp [waitCalls] at hp
end Serum.Demo
