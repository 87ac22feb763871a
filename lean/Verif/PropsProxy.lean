import Verif.Proxy
import Verif.PropsAuth
import Verif.PropsLayout
import Verif.Demo

/-!
C50: the permissioned-market proxy. C51: the assert-owner program.
-/

namespace Serum.Props
open Serum.Proxy

/-! ### What the proxy may do -/

/-- The instructions the proxy documents as relayed. -/
inductive Listed : Instruction → Prop where
  | init : Listed .initOpenOrders
  | order (o : NewOrderIx) : Listed (.newOrderV3 o)
  | cancel (sd : Side) (id : Nat) : Listed (.cancelOrderV2 sd id)
  | cancelClient (c : Nat) : Listed (.cancelOrderByClientIdV2 c)
  | settle : Listed .settleFunds
  | close : Listed .closeOpenOrders
  | consume (n : Nat) : Listed (.consumeEvents n)
  | consumePermissioned (n : Nat) : Listed (.consumeEventsPermissioned n)
  | prune (n : Nat) : Listed (.prune n)

/-- Where the instructions made for a user have the market, the user and the user's open-orders account, counting
the accounts after the DEX program. -/
def roles : Instruction → Option (Nat × Nat × Nat)
  | .newOrderV3 _ => some (0, 7, 1)
  | .cancelOrderV2 _ _ | .cancelOrderByClientIdV2 _ => some (0, 4, 3)
  | .settleFunds => some (0, 2, 1)
  | .closeOpenOrders => some (3, 1, 0)
  | .initOpenOrders => some (4, 3, 2)
  | _ => none

/-- A key the proxy may sign for: the open-orders address derived from market and user as given in the
instruction, the user having signed; when opening an account also the market's init authority. -/
def MaySignFor (X : ProxyEnv) (accts : List AccMeta) (ix : Instruction) (k : Nat) : Prop :=
  ∃ im iu io m u, roles ix = some (im, iu, io) ∧ accts[im + 1]? = some m ∧ accts[iu + 1]? = some u ∧ u.signer = true ∧
    (if ix = .initOpenOrders then ∃ b, X.createPda m.key u.key b = some k ∨ X.createInit m.key b = some k
     else k = X.pda m.key u.key)

/-! ### Middlewares -/

def isPda : Middleware → Bool
  | .pda _ _ => true
  | _ => false

/-- `OpenOrdersPda` is used at most once. -/
def OnePda (mws : List Middleware) : Prop := (mws.filter isPda).length ≤ 1

theorem instructions_kinds {ms ms' : List Middleware} {d d' : List UInt8} (h : instructions ms d = .ok (ms', d')) :
    ms'.map isPda = ms.map isPda ∧ ∀ k, Middleware.referral k ∈ ms ↔ Middleware.referral k ∈ ms' := by
  induction ms generalizing ms' d d' with
  | nil => cases h; simp
  | cons m ms ih =>
    unfold instructions at h
    obtain ⟨⟨m1, d1⟩, h1, h⟩ := bind_ok h
    obtain ⟨⟨ms1, d2⟩, h2, h⟩ := bind_ok h
    cases h
    obtain ⟨k1, k2⟩ := ih h2
    cases m with
    | logger => cases h1; simp [k1, k2]
    | referral k => cases h1; simp [k1, k2]
    | pda b bi =>
      have : ∃ x y, m1 = .pda x y := by
        simp only [Middleware.instruction] at h1
        split at h1
        · cases h1
        · split at h1
          · split at h1
            · cases h1; exact ⟨_, _, rfl⟩
            · cases h1
          · cases h1; exact ⟨_, _, rfl⟩
      obtain ⟨x, y, rfl⟩ := this
      simp [k1, k2, isPda]

/-- Loggers and referral checks leave the context alone. -/
theorem handle_other {X : ProxyEnv} {owner : Nat → Option Nat} {m : Middleware} {ix : Instruction} {c c' : PCtx}
    (hm : isPda m = false) (h : m.handle X owner ix c = .ok c') : c' = c := by
  cases m with
  | pda => cases hm
  | logger => cases ix <;> (cases h; rfl)
  | referral k =>
    cases ix with
    | settleFunds =>
      simp only [Middleware.handle, referralSettle] at h
      obtain ⟨a, _, h⟩ := bind_ok h
      split at h
      · cases h; rfl
      · cases h
    | _ => cases h; rfl

theorem handleAll_others {X : ProxyEnv} {owner : Nat → Option Nat} {ix : Instruction} {ms : List Middleware} {c c' : PCtx}
    (hm : ∀ m ∈ ms, isPda m = false) (h : handleAll X owner ix ms c = .ok c') : c' = c := by
  induction ms generalizing c with
  | nil => cases h; rfl
  | cons m ms ih =>
    unfold handleAll at h
    obtain ⟨c1, h1, h2⟩ := bind_ok h
    have := handle_other (hm m (by simp)) h1
    subst this
    exact ih (fun m hm' => hm m (by simp [hm'])) h2

theorem handleAll_one {X : ProxyEnv} {owner : Nat → Option Nat} {ix : Instruction} {ms : List Middleware} {c c' : PCtx}
    (hm : (ms.filter isPda).length ≤ 1) (h : handleAll X owner ix ms c = .ok c') :
    ((∀ m ∈ ms, isPda m = false) ∧ c' = c) ∨ ∃ b bi, (Middleware.pda b bi).handle X owner ix c = .ok c' := by
  induction ms generalizing c with
  | nil => cases h; exact .inl ⟨by simp, rfl⟩
  | cons m ms ih =>
    unfold handleAll at h
    obtain ⟨c1, h1, h2⟩ := bind_ok h
    cases hp : isPda m with
    | false =>
      have := handle_other hp h1
      subst this
      rcases ih (by rwa [List.filter_cons, if_neg (by simp [hp])] at hm) h2 with ⟨k1, k2⟩ | k
      · refine .inl ⟨fun m' hm' => ?_, k2⟩
        rcases List.mem_cons.1 hm' with rfl | hm'
        · exact hp
        · exact k1 _ hm'
      · exact .inr k
    | true =>
      have hn : ∀ m ∈ ms, isPda m = false := by
        rw [List.filter_cons, if_pos hp] at hm
        have : ms.filter isPda = [] := List.length_eq_zero_iff.1 (by simpa using hm)
        intro m' hm'
        have := List.filter_eq_nil_iff.1 this m' hm'
        simpa using this
      have := handleAll_others hn h2
      subst this
      cases m with
      | pda b bi => exact .inr ⟨b, bi, h1⟩
      | logger => cases hp
      | referral => cases hp

theorem get_ok {l : List AccMeta} {i : Nat} {a : AccMeta} (h : Proxy.get l i = .ok a) : l[i]? = some a := by
  unfold Proxy.get at h
  exact unwrap_ok.1 h

/-- What `OpenOrdersPda` makes of the instructions on an existing account. -/
structure Replaced (X : ProxyEnv) (l : List AccMeta) (im iu io : Nat) (c : PCtx) : Prop where
  ex : ∃ m u a, l[im]? = some m ∧ l[iu]? = some u ∧ l[io]? = some a ∧ u.signer = true ∧
    c.accounts = l.set iu ⟨a.key, true⟩ ∧ c.seeds = [some (X.pda m.key u.key)]

theorem pdaReplace_ok {X : ProxyEnv} {l : List AccMeta} {im iu io : Nat} {c : PCtx}
    (h : pdaReplace X ⟨l, [], [], []⟩ im iu io = .ok c) : Replaced X l im iu io c ∧ c.pre = [] ∧ c.post = [] := by
  unfold pdaReplace at h
  obtain ⟨m, hm, h⟩ := bind_ok h
  obtain ⟨u, hu, h⟩ := bind_ok h
  cases hs : u.signer with
  | false => simp only [hs, Bool.not_false, if_true] at h; cases h
  | true =>
    simp only [hs, Bool.not_true] at h
    obtain ⟨a, ha, h⟩ := bind_ok h
    cases h
    exact ⟨⟨m, u, a, get_ok hm, get_ok hu, get_ok ha, hs, rfl, rfl⟩, rfl, rfl⟩

/-- What it makes of a new order. -/
theorem pdaNewOrder_ok {X : ProxyEnv} {l : List AccMeta} {o : NewOrderIx} {c : PCtx}
    (h : pdaNewOrder X ⟨l, [], [], []⟩ o = .ok c) :
    Replaced X l 0 7 1 c ∧ ∃ m u a p n, l[0]? = some m ∧ l[7]? = some u ∧ l[1]? = some a ∧ l[6]? = some p ∧
      approveAmount X m.key o = .ok n ∧ c.pre = [.approve p.key a.key u.key n] ∧ c.post = [.revoke p.key u.key] := by
  unfold pdaNewOrder at h
  obtain ⟨u, hu, h⟩ := bind_ok h
  cases hs : u.signer with
  | false => simp only [hs, Bool.not_false, if_true] at h; cases h
  | true =>
    simp only [hs, Bool.not_true] at h
    obtain ⟨m, hm, h⟩ := bind_ok h
    obtain ⟨a, ha, h⟩ := bind_ok h
    obtain ⟨p, hp, h⟩ := bind_ok h
    obtain ⟨n, hn, h⟩ := bind_ok h
    cases h
    exact ⟨⟨m, u, a, get_ok hm, get_ok hu, get_ok ha, hs, rfl, rfl⟩, m, u, a, p, n, get_ok hm, get_ok hu, get_ok ha,
      get_ok hp, hn, rfl, rfl⟩

/-- What it makes of opening an account. -/
theorem pdaInit_ok {X : ProxyEnv} {b bi : UInt8} {l : List AccMeta} {c : PCtx}
    (h : pdaInit X b bi ⟨l, [], [], []⟩ = .ok c) :
    c.pre = [] ∧ c.post = [] ∧ ∃ dex sys a u m r i rest, l = dex :: sys :: a :: u :: m :: r :: i :: rest ∧
      u.signer = true ∧ X.fresh a.key = true ∧ X.createPda m.key u.key b = some a.key ∧ X.createInit m.key bi = some i.key ∧
      c.seeds = [some a.key, some i.key] ∧ c.accounts = a :: ⟨a.key, true⟩ :: m :: r :: ⟨i.key, true⟩ :: rest := by
  unfold pdaInit at h
  obtain ⟨m, hm, h⟩ := bind_ok h
  obtain ⟨u, hu, h⟩ := bind_ok h
  obtain ⟨_, hi, h⟩ := bind_ok h
  simp only at hm hu hi h
  unfold initAccount at hi
  split at hi
  · rename_i dex sys a u' m' r i rest
    split at hi
    · rename_i hc
      obtain ⟨c1, c2, c3, c4, c5, c6, c7⟩ := hc
      simp only [Proxy.get, List.getElem?_cons_succ, List.getElem?_cons_zero, unwrap, Except.ok.injEq] at hm hu
      subst hm; subst hu
      obtain ⟨a', ha, h⟩ := bind_ok h
      obtain ⟨i', hi', h⟩ := bind_ok h
      simp only [Proxy.get, List.drop_succ_cons, List.drop_zero, List.getElem?_cons_zero, List.set_cons_succ,
        List.set_cons_zero, List.getElem?_cons_succ, unwrap, Except.ok.injEq] at ha hi' h
      subst ha; subst hi'
      cases h
      refine ⟨rfl, rfl, _, _, _, _, _, _, _, _, rfl, c3, c5, c6, c7, ?_, rfl⟩
      simp [c6, c7]
    · cases hi
  · cases hi

/-- `OpenOrdersPda`, all instructions: which keys it adds as signers, and the token calls. -/
theorem pda_seeds {X : ProxyEnv} {owner : Nat → Option Nat} {b bi : UInt8} {ix : Instruction} {dex : AccMeta}
    {l : List AccMeta} {c : PCtx} (h : (Middleware.pda b bi).handle X owner ix ⟨l, [], [], []⟩ = .ok c) :
    (∀ k, some k ∈ c.seeds → MaySignFor X (dex :: l) ix k) ∧ ((∀ o, ix ≠ .newOrderV3 o) → c.pre = [] ∧ c.post = []) := by
  have rep : ∀ {im iu io : Nat}, roles ix = some (im, iu, io) → ix ≠ .initOpenOrders → Replaced X l im iu io c →
      ∀ k, some k ∈ c.seeds → MaySignFor X (dex :: l) ix k := by
    rintro im iu io hr hi ⟨m, u, a, hm, hu, ha, hs, _, hsd⟩ k hk
    rw [hsd] at hk
    simp only [List.mem_singleton, Option.some.injEq] at hk
    exact ⟨im, iu, io, m, u, hr, by simpa using hm, by simpa using hu, hs, by rw [if_neg hi]; exact hk⟩
  cases ix with
  | newOrderV3 o =>
    exact ⟨rep rfl (by simp) (pdaNewOrder_ok h).1, fun hn => absurd rfl (hn o)⟩
  | cancelOrderV2 sd id =>
    obtain ⟨h1, h2⟩ := pdaReplace_ok h
    exact ⟨rep rfl (by simp) h1, fun _ => h2⟩
  | cancelOrderByClientIdV2 id =>
    obtain ⟨h1, h2⟩ := pdaReplace_ok h
    exact ⟨rep rfl (by simp) h1, fun _ => h2⟩
  | settleFunds =>
    obtain ⟨h1, h2⟩ := pdaReplace_ok h
    exact ⟨rep rfl (by simp) h1, fun _ => h2⟩
  | closeOpenOrders =>
    obtain ⟨h1, h2⟩ := pdaReplace_ok h
    exact ⟨rep rfl (by simp) h1, fun _ => h2⟩
  | initOpenOrders =>
    obtain ⟨p1, p2, dx, sys, a, u, m, r, i, rest, rfl, hs, _, h1, h2, h3, _⟩ := pdaInit_ok h
    refine ⟨?_, fun _ => ⟨p1, p2⟩⟩
    intro k hk
    rw [h3] at hk
    refine ⟨4, 3, 2, m, u, rfl, by simp, by simp, hs, ?_⟩
    rw [if_pos rfl]
    simp only [List.mem_cons, Option.some.injEq, List.not_mem_nil, or_false] at hk
    rcases hk with rfl | rfl
    · exact ⟨b, .inl h1⟩
    · exact ⟨bi, .inr h2⟩
  | prune n =>
    simp only [Middleware.handle, pdaPrune] at h
    obtain ⟨a, _, h⟩ := bind_ok h
    split at h
    · cases h
    · cases h; exact ⟨by simp, fun _ => ⟨rfl, rfl⟩⟩
  | _ => cases h; exact ⟨by simp, fun _ => ⟨rfl, rfl⟩⟩

/-! ### The whole run -/

/-- A run as the parts of its plan. -/
theorem run_split {I : Impl} {X : ProxyEnv} {P : Params} {env : Env} {mws : List Middleware} {s s' : State I}
    {accts : List AccMeta} {data : List UInt8} (h : run I X P env mws s accts data = .ok s') :
    (s' = s ∧ plan X (fun a => (s.toks a).map Tok.owner) mws accts data = .ok none) ∨
    ∃ dex l ms d ix c l1 s1 l2, accts = dex :: l ∧ dex.key = X.dexId ∧ instructions mws data = .ok (ms, d) ∧
      Instruction.unpack d = some ix ∧ Listed ix ∧
      handleAll X (fun a => (s.toks a).map Tok.owner) ix ms ⟨l, [], [], []⟩ = .ok c ∧
      tokCalls (signs accts) s.toks c.pre = .ok l1 ∧ checkCpi accts c.seeds c.accounts = .ok () ∧
      process I P env { s with toks := l1 } c.accounts ix = .ok s1 ∧ tokCalls (signs accts) s1.toks c.post = .ok l2 ∧
      s' = { s1 with toks := l2 } := by
  unfold run at h
  obtain ⟨p, hp, h⟩ := bind_ok h
  cases p with
  | none => cases h; exact .inl ⟨rfl, hp⟩
  | some p =>
    obtain ⟨c, ix⟩ := p
    obtain ⟨l1, ht1, h⟩ := bind_ok h
    obtain ⟨_, hc, h⟩ := bind_ok h
    obtain ⟨s1, hx, h⟩ := bind_ok h
    obtain ⟨l2, ht2, h⟩ := bind_ok h
    cases h
    unfold plan at hp
    cases accts with
    | nil => cases hp
    | cons dex l =>
      by_cases hd : dex.key = X.dexId
      · simp only [ne_eq, hd, not_true_eq_false, if_false] at hp
        obtain ⟨⟨ms, d⟩, hi, hp⟩ := bind_ok hp
        cases hu : Instruction.unpack d with
        | none => simp only [hu] at hp; cases hp
        | some ix' =>
          simp only [hu] at hp
          cases hm : minAccounts ix' with
          | none => simp only [hm] at hp; cases hp
          | some k =>
            simp only [hm] at hp
            split at hp
            · cases hp
            · obtain ⟨c', hh, hp⟩ := bind_ok hp
              cases hp
              have hl : Listed ix := by
                cases ix <;> first | constructor | cases hm
              have hv : IxValid ix := by
                obtain ⟨_, _, _, hv, _⟩ := decoding_is_strict _ _ hu
                exact hv
              unfold processRaw at hx
              rw [instruction_round_trip ix hv] at hx
              exact .inr ⟨dex, l, ms, d, ix, c, l1, s1, l2, rfl, hd, hi, hu, hl, hh, ht1, hc, hx, ht2, rfl⟩
      · simp only [ne_eq, hd, not_false_eq_true, if_true] at hp; cases hp

theorem onePda_iff {ms ms' : List Middleware} (h : ms'.map isPda = ms.map isPda) (h1 : OnePda ms) :
    (ms'.filter isPda).length ≤ 1 := by
  have e : ∀ ms : List Middleware, (ms.filter isPda).length = (ms.map isPda).count true := by
    intro ms
    rw [← List.countP_eq_length_filter, List.count, List.countP_map]
    congr 1
    funext m
    simp
  rw [e, h, ← e]
  exact h1

/-- C50. Whatever instruction data and accounts the proxy is given: it either changes nothing, or runs one of its
listed instructions on the DEX, and every account it presents as a signer signed the transaction itself or is an
address derived from the market and a user who signed. Except around new orders, it does nothing else. -/
theorem proxy_signers {I : Impl} {X : ProxyEnv} {P : Params} {env : Env} {mws : List Middleware} {s s' : State I}
    {accts : List AccMeta} {data : List UInt8} (hm : OnePda mws) (h : run I X P env mws s accts data = .ok s') :
    s' = s ∨ ∃ ix relayed l1 s1 l2, Listed ix ∧
      (∀ a ∈ relayed, a.signer = true → (∃ b ∈ accts, b.key = a.key ∧ b.signer = true) ∨ MaySignFor X accts ix a.key) ∧
      process I P env { s with toks := l1 } relayed ix = .ok s1 ∧ s' = { s1 with toks := l2 } ∧
      ((∀ o, ix ≠ .newOrderV3 o) → l1 = s.toks ∧ l2 = s1.toks) := by
  rcases run_split h with ⟨h, _⟩ | ⟨dex, l, ms, d, ix, c, l1, s1, l2, rfl, hd, hi, hu, hl, hh, ht1, hc, hx, ht2, rfl⟩
  · exact .inl h
  · refine .inr ⟨ix, c.accounts, l1, s1, l2, hl, ?_, hx, rfl, ?_⟩
    all_goals have ho := onePda_iff (instructions_kinds hi).1 hm
    · intro a ha hs
      unfold checkCpi at hc
      split at hc
      · cases hc
      · split at hc
        · rename_i hall
          have := List.all_eq_true.1 hall a ha
          simp only [hs, Bool.not_true, Bool.false_or, Bool.or_eq_true] at this
          rcases this with h1 | h1
          · obtain ⟨b, hb, hb'⟩ := List.any_eq_true.1 h1
            simp only [Bool.and_eq_true, beq_iff_eq] at hb'
            exact .inl ⟨b, hb, hb'⟩
          · rw [List.contains_iff_mem] at h1
            rcases handleAll_one ho hh with ⟨_, rfl⟩ | ⟨b, bi, hb⟩
            · simp at h1
            · exact .inr ((pda_seeds (dex := dex) hb).1 _ h1)
        · cases hc
    · intro hn
      have : c.pre = [] ∧ c.post = [] := by
        rcases handleAll_one ho hh with ⟨_, rfl⟩ | ⟨b, bi, hb⟩
        · exact ⟨rfl, rfl⟩
        · exact (pda_seeds (dex := dex) hb).2 hn
      rw [this.1] at ht1
      rw [this.2] at ht2
      cases ht1; cases ht2; exact ⟨rfl, rfl⟩

/-- The unlisted instructions are never relayed, nor is data that does not decode. -/
theorem proxy_ignores_rest {I : Impl} {X : ProxyEnv} {P : Params} {env : Env} {mws ms : List Middleware} {s s' : State I}
    {accts : List AccMeta} {data d : List UInt8} (hi : instructions mws data = .ok (ms, d))
    (hd : ∀ ix, Instruction.unpack d = some ix → ¬ Listed ix)
    (h : run I X P env mws s accts data = .ok s') : s' = s := by
  rcases run_split h with ⟨h, _⟩ | ⟨dex, l, ms', d', ix, c, l1, s1, l2, rfl, _, hi', hu, hl, _⟩
  · exact h
  · rw [hi] at hi'
    cases hi'
    exact absurd hl (hd ix hu)

/-! ### On behalf of a user -/

theorem checkCpi_ok {accts : List AccMeta} {seeds : List (Option Nat)} {metas : List AccMeta}
    (h : checkCpi accts seeds metas = .ok ()) {a : AccMeta} (ha : a ∈ metas) (hs : a.signer = true) :
    (∃ b ∈ accts, b.key = a.key ∧ b.signer = true) ∨ some a.key ∈ seeds := by
  unfold checkCpi at h
  split at h
  · cases h
  · split at h
    · rename_i hall
      have := List.all_eq_true.1 hall a ha
      simp only [hs, Bool.not_true, Bool.false_or, Bool.or_eq_true] at this
      rcases this with h1 | h1
      · obtain ⟨b, hb, hb'⟩ := List.any_eq_true.1 h1
        simp only [Bool.and_eq_true, beq_iff_eq] at hb'
        exact .inl ⟨b, hb, hb'⟩
      · exact .inr (List.contains_iff_mem.1 h1)
    · cases h

theorem handleAll_pda {X : ProxyEnv} {owner : Nat → Option Nat} {ix : Instruction} {mws ms : List Middleware}
    {data d : List UInt8} {c c' : PCtx} (hi : instructions mws data = .ok (ms, d)) (hm : OnePda mws)
    (hp : ∃ b bi, Middleware.pda b bi ∈ mws) (h : handleAll X owner ix ms c = .ok c') :
    ∃ b bi, (Middleware.pda b bi).handle X owner ix c = .ok c' := by
  have hk := (instructions_kinds hi).1
  rcases handleAll_one (onePda_iff hk hm) h with ⟨hn, _⟩ | hb
  · exfalso
    obtain ⟨b, bi, hb⟩ := hp
    have : true ∈ mws.map isPda := List.mem_map.2 ⟨_, hb, rfl⟩
    rw [← hk] at this
    obtain ⟨m, hm, hm'⟩ := List.mem_map.1 this
    rw [hn m hm] at hm'
    cases hm'
  · exact hb

/-- C50. Placing, cancelling, settling and closing through the proxy: the user named in the instruction signed,
and the open-orders account named in it is the address derived from that market and that user (unless it signed
itself). The DEX gets the accounts as given, the open-orders account standing in as its own owner. -/
theorem proxy_for_user {I : Impl} {X : ProxyEnv} {P : Params} {env : Env} {mws ms : List Middleware} {s s' : State I}
    {accts : List AccMeta} {data d : List UInt8} {ix : Instruction} {im iu io : Nat} (hm : OnePda mws)
    (hp : ∃ b bi, Middleware.pda b bi ∈ mws) (hi : instructions mws data = .ok (ms, d))
    (hu : Instruction.unpack d = some ix) (hr : roles ix = some (im, iu, io)) (hn : ix ≠ .initOpenOrders)
    (h : run I X P env mws s accts data = .ok s') :
    ∃ dex l m u a l1 s1 l2, accts = dex :: l ∧ dex.key = X.dexId ∧ l[im]? = some m ∧ l[iu]? = some u ∧ l[io]? = some a ∧
      u.signer = true ∧ ((∃ b ∈ accts, b.key = a.key ∧ b.signer = true) ∨ a.key = X.pda m.key u.key) ∧
      process I P env { s with toks := l1 } (l.set iu ⟨a.key, true⟩) ix = .ok s1 ∧ s' = { s1 with toks := l2 } ∧
      ((∀ o, ix ≠ .newOrderV3 o) → l1 = s.toks ∧ l2 = s1.toks) ∧
      (∀ o, ix = .newOrderV3 o → ∃ p n, l[6]? = some p ∧ approveAmount X m.key o = .ok n ∧
        tokExec (signs accts) s.toks (.approve p.key a.key u.key n) = some l1 ∧
        tokExec (signs accts) s1.toks (.revoke p.key u.key) = some l2) := by
  rcases run_split h with ⟨_, h⟩ | ⟨dex, l, ms', d', ix', c, l1, s1, l2, rfl, hd, hi', hu', hl, hh, ht1, hc, hx, ht2, rfl⟩
  · exfalso
    unfold plan at h
    split at h
    · cases h
    · split at h
      · cases h
      · obtain ⟨⟨ms', d'⟩, hi', h⟩ := bind_ok h
        rw [hi] at hi'
        cases hi'
        simp only [hu] at h
        have : ∃ k, minAccounts ix = some k := by
          cases ix <;> first | exact ⟨_, rfl⟩ | cases hr
        obtain ⟨k, hk⟩ := this
        simp only [hk] at h
        split at h
        · cases h
        · obtain ⟨_, _, h⟩ := bind_ok h
          cases h
  · rw [hi] at hi'
    cases hi'
    rw [hu] at hu'
    cases hu'
    obtain ⟨b, bi, hb⟩ := handleAll_pda hi hm hp hh
    have main : Replaced X l im iu io c ∧ ((∀ o, ix ≠ .newOrderV3 o) → c.pre = [] ∧ c.post = []) ∧
        (∀ o, ix = .newOrderV3 o → ∃ m u a p n, l[im]? = some m ∧ l[iu]? = some u ∧ l[io]? = some a ∧ l[6]? = some p ∧
          approveAmount X m.key o = .ok n ∧ c.pre = [.approve p.key a.key u.key n] ∧ c.post = [.revoke p.key u.key]) := by
      cases ix with
      | newOrderV3 o =>
        cases hr
        obtain ⟨k1, k2⟩ := pdaNewOrder_ok hb
        exact ⟨k1, fun hn => absurd rfl (hn o), fun o' ho => by cases ho; exact k2⟩
      | cancelOrderV2 sd id => cases hr; obtain ⟨k1, k2⟩ := pdaReplace_ok hb; exact ⟨k1, fun _ => k2, fun _ ho => by cases ho⟩
      | cancelOrderByClientIdV2 id =>
        cases hr; obtain ⟨k1, k2⟩ := pdaReplace_ok hb; exact ⟨k1, fun _ => k2, fun _ ho => by cases ho⟩
      | settleFunds => cases hr; obtain ⟨k1, k2⟩ := pdaReplace_ok hb; exact ⟨k1, fun _ => k2, fun _ ho => by cases ho⟩
      | closeOpenOrders => cases hr; obtain ⟨k1, k2⟩ := pdaReplace_ok hb; exact ⟨k1, fun _ => k2, fun _ ho => by cases ho⟩
      | initOpenOrders => exact absurd rfl hn
      | _ => cases hr
    obtain ⟨⟨m, u, a, e1, e2, e3, e4, e5, e6⟩, k2, k3⟩ := main
    refine ⟨dex, l, m, u, a, l1, s1, l2, rfl, hd, e1, e2, e3, e4, ?_, by rw [← e5]; exact hx, rfl, ?_, ?_⟩
    · have hlt : iu < l.length := by
        rcases Nat.lt_or_ge iu l.length with h | h
        · exact h
        · rw [List.getElem?_eq_none h] at e2; cases e2
      have := checkCpi_ok hc (a := ⟨a.key, true⟩) (by rw [e5]; exact List.mem_set hlt _) rfl
      rcases this with h1 | h1
      · exact .inl h1
      · rw [e6] at h1
        exact .inr (by simpa using h1)
    · intro hno
      obtain ⟨q1, q2⟩ := k2 hno
      rw [q1] at ht1
      rw [q2] at ht2
      cases ht1; cases ht2; exact ⟨rfl, rfl⟩
    · intro o ho
      obtain ⟨m', u', a', p, n, f1, f2, f3, f4, f5, f6, f7⟩ := k3 o ho
      rw [e1] at f1; rw [e2] at f2; rw [e3] at f3
      cases f1; cases f2; cases f3
      rw [f6] at ht1
      rw [f7] at ht2
      refine ⟨p, n, f4, f5, ?_, ?_⟩
      · unfold tokCalls at ht1
        split at ht1
        · cases ht1
        · rename_i q; cases ht1; exact q
      · unfold tokCalls at ht2
        split at ht2
        · cases ht2
        · rename_i q; cases ht2; exact q

/-- C50. With an open-orders address that determines market and user and has no key of its own, nobody but that
user gets an instruction on their account through the proxy. -/
theorem proxy_only_user {I : Impl} {X : ProxyEnv} {P : Params} {env : Env} {mws ms : List Middleware} {s s' : State I}
    {accts : List AccMeta} {data d : List UInt8} {ix : Instruction} {im iu io mk us : Nat} {a : AccMeta} (hm : OnePda mws)
    (hp : ∃ b bi, Middleware.pda b bi ∈ mws) (hi : instructions mws data = .ok (ms, d))
    (hu : Instruction.unpack d = some ix) (hr : roles ix = some (im, iu, io)) (hn : ix ≠ .initOpenOrders)
    (hinj : ∀ m u m' u', X.pda m u = X.pda m' u' → m = m' ∧ u = u')
    (hk : ∀ b ∈ accts, b.key = X.pda mk us → b.signer = false)
    (ha : accts[io + 1]? = some a) (hak : a.key = X.pda mk us)
    (h : run I X P env mws s accts data = .ok s') :
    (∃ b ∈ accts, b.key = us ∧ b.signer = true) ∧ (∃ m, accts[im + 1]? = some m ∧ m.key = mk) := by
  obtain ⟨dex, l, m, u, a', _, _, _, rfl, _, e1, e2, e3, e4, e5, _⟩ := proxy_for_user hm hp hi hu hr hn h
  simp only [List.getElem?_cons_succ] at ha ⊢
  rw [e3] at ha
  cases ha
  rcases e5 with ⟨b, hb, hb1, hb2⟩ | e5
  · rw [hk b hb (by rw [hb1, hak])] at hb2; cases hb2
  · obtain ⟨rfl, rfl⟩ := hinj _ _ _ _ (hak.symm.trans e5)
    exact ⟨⟨u, List.mem_cons_of_mem _ (List.mem_of_getElem? e2), rfl, e4⟩, m, e1, rfl⟩

/-- The base lot size lies where the proxy reads it. -/
theorem coinLot_at {m : Market} (h : m.coinLot < W64) : ofLe ((m.bytes.drop (5 + 43 * 8)).take 8) = m.coinLot := by
  obtain ⟨r, e⟩ := market_body m
  have e' : m.bytes = (headPad ++ packFields (m.fieldsV1.take 16)) ++
      (leBytes 8 m.coinLot ++ (packFields (m.fieldsV1.drop 17) ++ (r ++ tailPad))) := by
    have e2 : packFields m.fieldsV1 = packFields (m.fieldsV1.take 16) ++
        (leBytes 8 m.coinLot ++ packFields (m.fieldsV1.drop 17)) := by
      have e3 : m.fieldsV1 = m.fieldsV1.take 16 ++ (8, m.coinLot) :: m.fieldsV1.drop 17 := rfl
      have e4 := congrArg packFields e3
      rw [packFields_append] at e4
      exact e4
    unfold Market.bytes padded
    rw [e, e2]
    simp only [List.append_assoc]
  have hl : (headPad ++ packFields (m.fieldsV1.take 16)).length = 5 + 43 * 8 := by
    rw [List.length_append, packFields_length]
    simp [headPad, Market.fieldsV1]
  rw [e', List.drop_left' hl, List.take_left' (leBytes_length 8 _), ofLe_leBytes 8 _ h]

/-- C50. A new order through the proxy: the allowance is given on the payer's wallet, which belongs to the user,
to the user's open-orders account; it is what the order may cost at most: the quote limit of a bid, the base
quantity times the market's lot size of an ask. Afterwards the wallet has no delegate. -/
theorem proxy_allowance {I : Impl} {X : ProxyEnv} {P : Params} {env : Env} {mws ms : List Middleware} {s s' : State I}
    {accts : List AccMeta} {data d : List UInt8} {o : NewOrderIx} (hm : OnePda mws)
    (hp : ∃ b bi, Middleware.pda b bi ∈ mws) (hi : instructions mws data = .ok (ms, d))
    (hu : Instruction.unpack d = some (.newOrderV3 o))
    (hmk : ∀ m, accts[1]? = some m → X.data m.key = s.mkt.bytes) (hf : s.mkt.coinLot < W64)
    (h : run I X P env mws s accts data = .ok s') :
    ∃ a p u t l1, accts[2]? = some a ∧ accts[7]? = some p ∧ accts[8]? = some u ∧ u.signer = true ∧
      s.toks p.key = some t ∧ t.owner = u.key ∧
      l1 = s.toks.put p.key (some { t with
        delegate := some a.key
        delegated := match o.side with | .bid => o.maxPcQty | .ask => o.maxCoinQty * s.mkt.coinLot }) ∧
      (∃ s1 l2, processRaw I P env { s with toks := l1 } (accts.tail.set 7 ⟨a.key, true⟩) (Instruction.newOrderV3 o).pack = .ok s1 ∧
        s' = { s1 with toks := l2 } ∧ (∀ b, b ≠ p.key → l2 b = s1.toks b)) ∧
      ∃ t', s'.toks p.key = some t' ∧ t'.owner = u.key ∧ t'.delegate = none ∧ t'.delegated = 0 := by
  obtain ⟨dex, l, m, u, a, l1, s1, l2, rfl, hd, e1, e2, e3, e4, e5, hx, rfl, _, hw⟩ :=
    proxy_for_user hm hp hi hu rfl (by simp) h
  obtain ⟨p, n, f1, f2, f3, f4⟩ := hw o rfl
  simp only [List.getElem?_cons_succ, List.tail_cons] at hmk ⊢
  have hn : n = match o.side with | .bid => o.maxPcQty | .ask => o.maxCoinQty * s.mkt.coinLot := by
    unfold approveAmount at f2
    cases hsd : o.side with
    | bid => rw [hsd] at f2; cases f2; rfl
    | ask =>
      rw [hsd, hmk m e1] at f2
      simp only at f2 ⊢
      split at f2
      · cases f2
      · rw [unwrap_ok] at f2
        rw [checkedMul_some] at f2
        rw [f2.2, coinLot_at hf]
  rw [hn] at f3
  clear hn f2
  simp only [tokExec] at f3 f4
  cases ht : s.toks p.key with
  | none => rw [ht] at f3; cases f3
  | some t =>
    simp only [ht] at f3
    split at f3
    · rename_i hc
      cases f3
      cases ht1 : s1.toks p.key with
      | none => rw [ht1] at f4; cases f4
      | some t1 =>
        simp only [ht1] at f4
        split at f4
        · rename_i hc1
          cases f4
          have hv : IxValid (.newOrderV3 o) := by
            obtain ⟨_, _, _, hv, _⟩ := decoding_is_strict _ _ hu
            exact hv
          refine ⟨a, p, u, t, _, e3, f1, e2, e4, ht, hc.2.1, rfl, ⟨s1, _, ?_, rfl, ?_⟩, { t1 with delegate := none, delegated := 0 }, ?_, hc1.2.1,
            rfl, rfl⟩
          · unfold processRaw
            rw [instruction_round_trip _ hv]
            exact hx
          · intro b hb
            simp [Ledger.put, hb]
          · simp [Ledger.put]
        · cases f4
    · cases f3

/-- C50. Settling with a configured referrer: the referral wallet named in the instruction belongs to it. -/
theorem proxy_referral {I : Impl} {X : ProxyEnv} {P : Params} {env : Env} {mws ms : List Middleware} {s s' : State I}
    {accts : List AccMeta} {data d : List UInt8} {k : Nat} (hk : Middleware.referral k ∈ mws)
    (hi : instructions mws data = .ok (ms, d)) (hu : Instruction.unpack d = some .settleFunds)
    (h : run I X P env mws s accts data = .ok s') :
    ∃ w t, accts[10]? = some w ∧ s.toks w.key = some t ∧ t.owner = k := by
  rcases run_split h with ⟨_, h⟩ | ⟨dex, l, ms', d', ix', c, l1, s1, l2, rfl, hd, hi', hu', hl, hh, _⟩
  · exfalso
    unfold plan at h
    split at h
    · cases h
    · split at h
      · cases h
      · obtain ⟨⟨ms', d'⟩, hi', h⟩ := bind_ok h
        rw [hi] at hi'
        cases hi'
        simp only [hu, minAccounts] at h
        split at h
        · cases h
        · obtain ⟨_, _, h⟩ := bind_ok h
          cases h
  · rw [hi] at hi'
    cases hi'
    rw [hu] at hu'
    cases hu'
    have hk' := ((instructions_kinds hi).2 k).1 hk
    have key : ∀ (ms : List Middleware) (c0 : PCtx), Middleware.referral k ∈ ms →
        handleAll X (fun a => (s.toks a).map Tok.owner) .settleFunds ms c0 = .ok c →
        ∃ w, c0.accounts[9]? = some w ∧ (s.toks w.key).map Tok.owner = some k := by
      intro ms
      induction ms with
      | nil => intro _ h; simp at h
      | cons m ms ih =>
        intro c0 hm hh
        unfold handleAll at hh
        obtain ⟨c1, h1, h2⟩ := bind_ok hh
        rcases List.mem_cons.1 hm with rfl | hm
        · simp only [Middleware.handle, referralSettle] at h1
          obtain ⟨w, hw, h1⟩ := bind_ok h1
          split at h1
          · rename_i hc
            exact ⟨w, get_ok hw, hc⟩
          · cases h1
        · obtain ⟨w, hw, hw'⟩ := ih c1 hm h2
          refine ⟨w, ?_, hw'⟩
          cases hpd : isPda m with
          | false => rw [handle_other hpd h1] at hw; exact hw
          | true =>
            cases m with
            | logger => cases hpd
            | referral => cases hpd
            | pda b bi =>
              simp only [Middleware.handle, pdaReplace] at h1
              obtain ⟨_, _, h1⟩ := bind_ok h1
              obtain ⟨_, _, h1⟩ := bind_ok h1
              split at h1
              · cases h1
              · obtain ⟨_, _, h1⟩ := bind_ok h1
                cases h1
                simpa using hw
    obtain ⟨w, hw, hw'⟩ := key _ _ hk' hh
    cases ht : s.toks w.key with
    | none => rw [ht] at hw'; cases hw'
    | some t =>
      rw [ht] at hw'
      exact ⟨w, t, by simpa using hw, ht, by simpa using hw'⟩

/-- C50. Opening an account through the proxy: the user signed, the account is a fresh one at an address derived
from market and user, and its owner on the DEX becomes the account itself; only the market's derived init
authority signs besides. -/
theorem proxy_init {I : Impl} {X : ProxyEnv} {P : Params} {env : Env} {mws ms : List Middleware} {s s' : State I}
    {accts : List AccMeta} {data d : List UInt8} (hm : OnePda mws)
    (hp : ∃ b bi, Middleware.pda b bi ∈ mws) (hi : instructions mws data = .ok (ms, d))
    (hu : Instruction.unpack d = some .initOpenOrders)
    (h : run I X P env mws s accts data = .ok s') :
    ∃ dex dex' sys a u m r i rest b bi, accts = dex :: dex' :: sys :: a :: u :: m :: r :: i :: rest ∧
      u.signer = true ∧ X.fresh a.key = true ∧ X.createPda m.key u.key b = some a.key ∧
      X.createInit m.key bi = some i.key ∧
      process I P env s (a :: ⟨a.key, true⟩ :: m :: r :: ⟨i.key, true⟩ :: rest) .initOpenOrders = .ok s' := by
  rcases run_split h with ⟨_, h⟩ | ⟨dex, l, ms', d', ix', c, l1, s1, l2, rfl, hd, hi', hu', hl, hh, ht1, hc, hx, ht2, rfl⟩
  · exfalso
    unfold plan at h
    split at h
    · cases h
    · split at h
      · cases h
      · obtain ⟨⟨ms', d'⟩, hi', h⟩ := bind_ok h
        rw [hi] at hi'
        cases hi'
        simp only [hu, minAccounts] at h
        split at h
        · cases h
        · obtain ⟨_, _, h⟩ := bind_ok h
          cases h
  · rw [hi] at hi'
    cases hi'
    rw [hu] at hu'
    cases hu'
    obtain ⟨b, bi, hb⟩ := handleAll_pda hi hm hp hh
    obtain ⟨p1, p2, dx, sys, a, u, m, r, i, rest, rfl, hs, hf, h1, h2, _, h4⟩ := pdaInit_ok hb
    rw [p1] at ht1
    rw [p2] at ht2
    cases ht1; cases ht2
    rw [h4] at hx
    exact ⟨dex, dx, sys, a, u, m, r, i, rest, b, bi, rfl, hs, hf, h1, h2, hx⟩

theorem tokCalls_reach {P : Params} {sg : Nat → Bool} {ixs : List TokIx} {s : State conc} {l : Ledger}
    (hr : Reach P s) (hn : ∀ k, sg k = true → P.vaultSigner s.mkt.ownAddress s.mkt.vaultSignerNonce ≠ some k)
    (h : tokCalls sg s.toks ixs = .ok l) : Reach P { s with toks := l } := by
  induction ixs generalizing s with
  | nil => cases h; exact hr
  | cons ix ixs ih =>
    unfold tokCalls at h
    split at h
    · cases h
    · rename_i l1 h1
      exact ih (s := { s with toks := l1 }) (hr.step (.token hn h1)) hn h

/-- C50. Everything proved about the DEX applies to markets used through the proxy: a run leads from reachable to
reachable states. The vault signer is not among the proxy's derived addresses. -/
theorem proxy_reach {X : ProxyEnv} {P : Params} {env : Env} {mws : List Middleware} {s s' : State conc}
    {accts : List AccMeta} {data : List UInt8} (hm : OnePda mws) (hr : Reach P s) (hn : NotVault P s.mkt accts)
    (hv : ∀ ix k, MaySignFor X accts ix k → P.vaultSigner s.mkt.ownAddress s.mkt.vaultSignerNonce ≠ some k)
    (h : run conc X P env mws s accts data = .ok s') : Reach P s' := by
  rcases run_split h with ⟨rfl, _⟩ | ⟨dex, l, ms, d, ix, c, l1, s1, l2, rfl, hd, hi, hu, hl, hh, ht1, hc, hx, ht2, rfl⟩
  · exact hr
  · have hsg : ∀ k, signs (dex :: l) k = true → P.vaultSigner s.mkt.ownAddress s.mkt.vaultSignerNonce ≠ some k := by
      intro k hk
      obtain ⟨b, hb, hb'⟩ := List.any_eq_true.1 hk
      simp only [Bool.and_eq_true, beq_iff_eq] at hb'
      rw [← hb'.1]
      exact hn b hb hb'.2
    have r1 := tokCalls_reach hr hsg ht1
    have hix : IxValid ix := by
      obtain ⟨_, _, _, hv, _⟩ := decoding_is_strict _ _ hu
      exact hv
    have hraw : processRaw conc P env { s with toks := l1 } c.accounts ix.pack = .ok s1 := by
      unfold processRaw
      rw [instruction_round_trip ix hix]
      exact hx
    have r2 : Reach P s1 := by
      refine r1.step (.instr ?_ hraw)
      intro a ha hs
      rcases checkCpi_ok hc ha hs with ⟨b, hb, hb1, hb2⟩ | hsd
      · rw [← hb1]; exact hn b hb hb2
      · rcases handleAll_one (onePda_iff (instructions_kinds hi).1 hm) hh with ⟨_, rfl⟩ | ⟨b, bi, hb⟩
        · simp at hsd
        · exact hv ix _ ((pda_seeds (dex := dex) hb).1 _ hsd)
    have hk := processRaw_keeps hraw
    refine tokCalls_reach r2 ?_ ht2
    intro k hk'
    rw [hk.eq]
    exact hsg k hk'

namespace ProxyDemo

/-- Derived addresses made up for the example; market 50's data as in `Demo`. -/
def X : ProxyEnv where
  dexId := 90
  systemId := 91
  rentId := 92
  pda := fun m u => 1000 * m + u
  createPda := fun m u b => if b = 255 then some (1000 * m + u) else none
  createInit := fun m b => if b = 254 then some (1000 * m + 999) else none
  data := fun _ => Demo.mkt.bytes
  fresh := fun _ => true

def mws : List Middleware := [.logger, .pda 0 0, .referral 13]

open Demo in
def orderAt (user : AccMeta) : List AccMeta := acc 90 :: (orderAccts 50011 21 11).set 7 user

def data : List UInt8 := 1 :: Demo.i1.pack

def ok (r : Except Err (State conc)) : Bool := match r with | .ok _ => true | .error _ => false

open Demo in
/-- An order of user 11 through the proxy; the same without the signature, and with another user's account. -/
theorem orders : ok (run conc X P env mws s0 (orderAt (sig 11)) data) = true ∧
    ok (run conc X P env mws s0 (orderAt (acc 11)) data) = false ∧
    ok (run conc X P env mws s0 (acc 90 :: orderAccts 50012 21 11) data) = false := by decide +kernel

open Demo in
def sOrder : State conc := (run conc X P env mws s0 (orderAt (sig 11)) data).toOption.getD s0

open Demo in
/-- Cancelling it, by the user and by somebody else; settling with the right and a wrong referrer. -/
theorem others : ok (run conc X P env mws sOrder [acc 90, acc 50, acc 55, acc 56, acc 50011, sig 11, acc 54]
      (1 :: (Instruction.cancelOrderByClientIdV2 7).pack)) = true ∧
    ok (run conc X P env mws sOrder [acc 90, acc 50, acc 55, acc 56, acc 50011, sig 12, acc 54]
      (1 :: (Instruction.cancelOrderByClientIdV2 7).pack)) = false ∧
    ok (run conc X P env mws sOrder [acc 90, acc 50, acc 50011, sig 11, acc 51, acc 52, acc 21, acc 31, acc 60, acc 73, acc 33]
      (1 :: Instruction.settleFunds.pack)) = true ∧
    ok (run conc X P env mws sOrder [acc 90, acc 50, acc 50011, sig 11, acc 51, acc 52, acc 21, acc 31, acc 60, acc 73, acc 32]
      (1 :: Instruction.settleFunds.pack)) = false := by decide +kernel

/-- The permissioned variant of the market, whose accounts are opened with the proxy's init authority. -/
def sPerm : State conc := { Demo.s0 with mkt := { Demo.mkt with flags := 515, ooAuthority := 50999 } }

open Demo in
/-- Opening the account first. -/
theorem opens : ok (run conc X P env mws sPerm [acc 90, acc 90, acc 91, acc 50011, sig 11, acc 50, acc 92, acc 50999]
      (0 :: 255 :: 254 :: Instruction.initOpenOrders.pack)) = true ∧
    ok (run conc X P env mws sPerm [acc 90, acc 90, acc 91, acc 50011, sig 12, acc 50, acc 92, acc 50999]
      (0 :: 255 :: 254 :: Instruction.initOpenOrders.pack)) = false := by decide +kernel

/-- The hypotheses of the theorems hold of it. -/
theorem hyps : OnePda mws ∧ (∃ b bi, Middleware.pda b bi ∈ mws) ∧ Middleware.referral 13 ∈ mws ∧
    (∃ ms, instructions mws data = .ok (ms, Demo.i1.pack)) ∧
    Instruction.unpack Demo.i1.pack = some (.newOrderV3 (Demo.order .ask 1000 5 1 7)) ∧ Demo.s0.mkt.coinLot < W64 :=
  ⟨(by decide : (mws.filter isPda).length ≤ 1), ⟨0, 0, by decide⟩, by decide, ⟨mws, rfl⟩, by decide +kernel, by decide⟩

end ProxyDemo

/-! ### C51 -/

/-- C51. The assert-owner program succeeds exactly on 32 bytes equal to the owner of its first account. -/
theorem assert_owner (owners : List (List UInt8)) (data : List UInt8) :
    (assertOwner owners data).isOk = true ↔ data.length = 32 ∧ ∃ o, owners.head? = some o ∧ data = o := by
  unfold assertOwner
  cases owners with
  | nil => simp [Except.isOk, Except.toBool]
  | cons o os =>
    by_cases h1 : data.length = 32
    · by_cases h2 : data = o
      · subst h2; simp [h1, Except.isOk, Except.toBool]
      · simp [h1, h2, Except.isOk, Except.toBool]
    · simp [h1, Except.isOk, Except.toBool]

example : (assertOwner [List.replicate 32 7, [1]] (List.replicate 32 7)).isOk = true ∧
    (assertOwner [List.replicate 32 7] (List.replicate 31 7)).isOk = false ∧
    (assertOwner [List.replicate 32 7] (List.replicate 32 8)).isOk = false := by decide

end Serum.Props
