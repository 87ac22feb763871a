import Verif.PropsShares

/-!
C55, C56, C57: how a pool is born, who controls it afterwards, and what the admin of an admin-controlled pool can
and cannot do to its holders.
-/

namespace Serum.Pool

/-! ### Specification -/

/-- The accounts of an `Initialize` request. -/
structure InitAccts where
  pool : AccMeta
  mint : AccMeta
  vaults : List AccMeta
  signer : AccMeta
  lqd : AccMeta
  initializer : AccMeta
  rent : AccMeta
  rest : List AccMeta

/-- What `Initialize` accepts, and the pool it makes. -/
structure Inits (E : PoolEnv) (k : PoolKind) (w : World) (accts : List AccMeta) (r : InitReq) (B : InitAccts)
    (st : PoolState) : Prop where
  listed : accts = B.pool :: B.mint :: B.vaults ++ [B.signer, B.lqd, B.initializer, B.rent] ++ B.rest
  count : B.vaults.length = r.assets
  /-- the authority is the address derived from the pool account, and mints the pool token -/
  derived : E.derive B.pool.key r.nonce = some B.signer.key
  minter : w.minter = some B.signer.key
  /-- it can spend from every vault -/
  vaultToks : ∀ x ∈ st.assets, Spends w.toks x.mint B.signer.key x.vault
  /-- the protocol's fees go to an account of the pool token that only the protocol controls -/
  lqdTok : ∃ t, w.toks B.lqd.key = some t ∧ t.mint = B.mint.key ∧ t.owner = E.feeOwner ∧ t.delegate = none ∧
    (t.closeAuth = none ∨ t.closeAuth = some B.signer.key)
  initTok : OfMint w.toks B.mint.key B.initializer.key
  rent : B.rent.key = E.rentId
  exempt : ∀ a ∈ B.pool :: B.mint :: B.lqd :: B.initializer :: B.vaults, E.exempt a.key = true
  bounds : 150 ≤ r.feeRate ∧ r.feeRate < 1000000
  /-- the pool -/
  mint : st.mint = B.mint.key
  vaults : st.assets.map (·.vault) = B.vaults.map (·.key)
  signer : st.signer = B.signer.key
  nonce : st.nonce = r.nonce
  params : st.params = []
  lqd : st.lqdVault = B.lqd.key
  initializer : st.initVault = B.initializer.key
  rate : st.feeRate = r.feeRate
  /-- the admin is named, not asked -/
  kind : match k with
    | .simple => st.admin = none ∧ st.custom = none
    | .admin => (∃ a l, B.rest = a :: l ∧ st.admin = some a.key) ∧ st.custom = some false

/-- What only the admin can do: the effect of each instruction on the pool and on the tokens. -/
inductive Administers (E : PoolEnv) (st : PoolState) (w : World) : List AccMeta → AdminIx → PoolState → World → Prop where
  | pause (l) : Administers E st w l .pause { st with custom := some true } w
  | unpause (vs l : List AccMeta) (hv : vs.map (·.key) = st.assets.map (·.vault))
      (hd : ∀ x ∈ st.assets, ∃ t, w.toks x.vault = some t ∧ (t.delegate = none ∨ t.delegated = 0)) :
      Administers E st w (vs ++ l) .unpause { st with custom := some false } w
  | approve (v d s p : AccMeta) (l) (n : Nat) (t : Tok) (hv : v.key ∈ st.assets.map (·.vault)) (hs : s.key = st.signer)
      (hp : p.key = E.splToken) (ht : w.toks v.key = some t) (ho : t.owner = st.signer) (hf : t.frozen = false) :
      Administers E st w (v :: d :: s :: p :: l) (.approveDelegate n) { st with custom := some true }
        { w with toks := w.toks.put v.key (some { t with delegate := some d.key, delegated := n }) }
  | add (v : AccMeta) (l) (t : Tok) (ht : w.toks v.key = some t) (ho : t.owner = st.signer)
      (hv : v.key ∉ st.assets.map (·.vault)) (hm : t.mint ∉ st.assets.map (·.mint)) :
      Administers E st w (v :: l) .addAsset { st with assets := st.assets ++ [⟨t.mint, v.key⟩] } w
  | remove (v : AccMeta) (l) (hv : v.key ∈ st.assets.map (·.vault)) (he : w.toks v.key ≠ none) (hb : bal w.toks v.key = 0) :
      Administers E st w (v :: l) .removeAsset { st with assets := st.assets.filter (·.vault ≠ v.key) } w
  | fee (l) (rate : Nat) (h : 150 ≤ rate ∧ rate < 1000000) :
      Administers E st w l (.updateFee rate) { st with feeRate := rate } w
  | handOver (a : AccMeta) (l) (h : a.signer = true) : Administers E st w (a :: l) .updateAdmin { st with admin := some a.key } w

/-! ### Histories -/

/-- Any number of token instructions with the given signatures. -/
inductive TokRun (mint : Nat) (signs : Nat → Bool) : World → World → Prop where
  | refl (w : World) : TokRun mint signs w w
  | step {w w' w'' : World} {ix : WorldIx} (h : TokRun mint signs w w') (hx : tokenExec mint signs w' ix = some w'') :
      TokRun mint signs w w''

theorem TokRun.effect {mint vs : Nat} {signs : Nat → Bool} {w w' : World} (h : TokRun mint signs w w')
    (hm : w.minter = some vs) (hs : signs vs = false) :
    Outside vs w.toks w'.toks ∧ w'.supply ≤ w.supply ∧ w'.minter = w.minter := by
  induction h with
  | refl => exact ⟨⟨fun h => h, fun _ h => ⟨h, Nat.le_refl _⟩⟩, Nat.le_refl _, rfl⟩
  | step _ hx ih =>
    obtain ⟨o1, s1, m1⟩ := ih
    obtain ⟨o2, s2, m2⟩ := tokenExec_effect (m1.trans hm) hs hx
    exact ⟨⟨fun h => o2.1 (o1.1 h), fun b hb => ⟨(o2.2 b (o1.2 b hb).1).1, Nat.le_trans (o1.2 b hb).2 (o2.2 b (o1.2 b hb).1).2⟩⟩,
      Nat.le_trans s2 s1, m2.trans m1⟩

/-- One thing that happens to a pool: a request to the program, or token instructions. The pool's authority is derived for
the pool account and signs only what the pool does; among the signers of the token instructions may be other pools. -/
inductive Call (E : PoolEnv) (k : PoolKind) : PoolState × World → PoolState × World → Prop where
  | request {st st' : PoolState} {w w' : World} {accts : List AccMeta} {r : Req}
      (hk : ∀ a ∈ accts, a.signer = true → a.key ≠ st.signer)
      (hn : ∀ n, r = .exec (.create n) ∨ r = .exec (.redeem n) → n < W64)
      (h : process E k (some st) w accts r = .ok (some st', w')) : Call E k (st, w) (st', w')
  | token {st : PoolState} {w w' : World} {signs : Nat → Bool} (hs : signs st.signer = false)
      (h : TokRun st.mint signs w w') : Call E k (st, w) (st, w')

/-- Any number of them, each satisfying `ok`. -/
inductive Calls (E : PoolEnv) (k : PoolKind) (ok : PoolState × World → PoolState × World → Prop) :
    PoolState × World → PoolState × World → Prop where
  | refl (s) : Calls E k ok s s
  | step {s s' s''} : Calls E k ok s s' → Call E k s' s'' → ok s' s'' → Calls E k ok s s''

/-- A pool that has been initialised. -/
def Born (E : PoolEnv) (k : PoolKind) (pk : Nat) (s : PoolState × World) : Prop :=
  ∃ accts r B, process E k none s.2 accts (.init r) = .ok (some s.1, s.2) ∧ Inits E k s.2 accts r B s.1 ∧ B.pool.key = pk

/-! ### Initialisation -/

theorem readAssets_ok {l : Ledger} {vs : List AccMeta} {xs : List Asset} :
    readAssets l vs = .ok xs ↔ xs.map (·.vault) = vs.map (·.key) ∧ ∀ x ∈ xs, OfMint l x.mint x.vault := by
  induction vs generalizing xs with
  | nil =>
    simp only [readAssets, List.map_nil, List.map_eq_nil_iff]
    constructor
    · intro h; cases h; simp
    · rintro ⟨h, _⟩; rw [h]
  | cons a as ih =>
    cases h : l a.key with
    | none =>
      simp only [readAssets, h]
      constructor
      · intro h; cases h
      · rintro ⟨h1, h2⟩
        cases xs with
        | nil => cases h1
        | cons x xs =>
          simp only [List.map_cons, List.cons.injEq] at h1
          obtain ⟨t, ht, _⟩ := h2 x (by simp)
          rw [h1.1, h] at ht
          cases ht
    | some t =>
      simp only [readAssets, h, bind_ok_iff]
      constructor
      · rintro ⟨ys, h1, h2⟩
        cases h2
        obtain ⟨i1, i2⟩ := ih.1 h1
        simp only [List.map_cons, i1, true_and, List.mem_cons, forall_eq_or_imp]
        exact ⟨⟨t, h, rfl⟩, i2⟩
      · rintro ⟨h1, h2⟩
        cases xs with
        | nil => cases h1
        | cons x xs =>
          simp only [List.map_cons, List.cons.injEq] at h1
          simp only [List.mem_cons, forall_eq_or_imp] at h2
          obtain ⟨⟨u, hu, hm⟩, h3⟩ := h2
          rw [h1.1, h] at hu
          cases hu
          refine ⟨xs, ih.2 ⟨h1.2, h3⟩, ?_⟩
          rw [hm, ← h1.1]
          rfl

theorem checkExempt_ok {E : PoolEnv} {a : AccMeta} {u : Unit} : checkExempt E a = .ok u ↔ E.exempt a.key = true := by
  unfold checkExempt; split <;> simp_all

theorem checkLqd_ok {E : PoolEnv} {l : Ledger} {s : Nat} {a : AccMeta} {u : Unit} :
    checkLqd E l s a = .ok u ↔ ∃ t, l a.key = some t ∧ t.owner = E.feeOwner ∧ t.delegate = none ∧
      (t.closeAuth = none ∨ t.closeAuth = some s) := by
  unfold checkLqd
  split
  · simp_all
  · rename_i t ht
    rw [ht]
    simp only [Option.some.injEq, exists_eq_left']
    split
    · simp_all
    · split
      · simp_all
      · split
        · simp_all
        · rename_i h1 h2 h3
          simp only [true_iff]
          exact ⟨Decidable.not_not.1 h1, Decidable.not_not.1 h2, by
            by_cases e : t.closeAuth = none
            · exact .inl e
            · exact .inr (Decidable.not_not.1 fun e' => h3 ⟨e, e'⟩)⟩

end Serum.Pool

namespace Serum.Props
open Serum.Pool

/-- C55: exactly the described requests create a pool, exactly as described; no token moves. -/
theorem pool_init {E : PoolEnv} {k : PoolKind} {w w' : World} {accts : List AccMeta} {r : InitReq} {st : PoolState} :
    Pool.process E k none w accts (.init r) = .ok (some st, w') ↔ w' = w ∧ ∃ B, Inits E k w accts r B st := by
  have fees : ∀ {st : PoolState} {lqd ini : AccMeta} {u : Unit}, checkFeeAccts E st w.toks lqd ini lqd = .ok u ↔
      lqd.key = st.lqdVault ∧ ini.key = st.initVault ∧ Spends w.toks st.mint E.feeOwner lqd.key ∧
      OfMint w.toks st.mint ini.key ∧ OfMint w.toks st.mint lqd.key := by
    intro st lqd ini u
    unfold checkFeeAccts
    simp only [bind_ok_iff, checkAddr_ok, checkTok_some, checkTok_none]
    grind
  simp only [Pool.process, bind_ok_iff]
  constructor
  · rintro ⟨st1, h, e⟩
    cases e
    refine ⟨rfl, ?_⟩
    unfold initPool at h
    simp only [bind_ok_iff, next_ok, nextN_ok, Prod.exists, readAssets_ok] at h
    obtain ⟨pool, l1, q1, mint, l2, q2, vaults, l3, q3, signer, l4, q4, lqd, l5, q5, ini, l6, q6, xs, q7,
      pool', mint', vaults', auth, l, q8, lqd', l8, q9, ini', l9, q10, rent, l10, q11, u1, q12, h⟩ := h
    obtain ⟨b1, b2, b3, b4, b5, b6⟩ := baseContext_ok.1 q8
    simp only at b2 b3 b4 b5 b6
    have hvl : vaults'.length = vaults.length := by
      have := congrArg List.length (b4.trans q7.1)
      simpa using this
    have e0 : accts = pool :: mint :: vaults ++ signer :: lqd :: ini :: l6 := by
      rw [q1, q2, q3.2, q4, q5, q6]; simp
    rw [e0] at b1
    simp only [List.cons_append, List.cons.injEq] at b1
    obtain ⟨e1, e2, c1⟩ := b1
    obtain ⟨e3, c2⟩ := List.append_inj c1 hvl.symm
    simp only [List.cons.injEq] at c2
    obtain ⟨e4, c3⟩ := c2
    rw [q9, q10] at c3
    simp only [List.cons.injEq] at c3
    obtain ⟨e5, e6, e7⟩ := c3
    subst e1 e2 e3 e4 e5 e6 e7
    split at h
    · cases h
    rename_i hr
    simp only [bind_ok_iff, checkExempt_ok, checkAll_ok, checkLqd_ok] at h
    obtain ⟨_, r1, _, r2, _, r3, _, r4, _, r5, _, r6, st2, r7, h⟩ := h
    obtain ⟨f1, f2, f3, f4, f5⟩ := fees.1 q12
    split at h
    · cases h
    rename_i hd
    split at h
    · cases h
    rename_i hlo
    split at h
    · cases h
    rename_i hhi
    cases h
    have hkind : st.mint = mint.key ∧ st.assets = xs ∧ st.signer = signer.key ∧ st.nonce = r.nonce ∧ st.params = [] ∧
        st.lqdVault = lqd.key ∧ st.initVault = ini.key ∧ st.feeRate = r.feeRate ∧ (match k with
        | .simple => st.admin = none ∧ st.custom = none
        | .admin => (∃ a l, l10 = a :: l ∧ st.admin = some a.key) ∧ st.custom = some false) := by
      cases k with
      | simple => simp only [PoolKind.init, Except.ok.injEq] at r7; subst r7; simp
      | admin =>
        simp only [PoolKind.init] at r7
        split at r7
        · cases r7
        · simp only [Except.ok.injEq] at r7; subst r7; simp
    obtain ⟨k1, k2, k3, k4, k5, k6, k7, k8, k9⟩ := hkind
    unfold minFeeRate at hlo
    unfold feeRateDenominator at hhi
    refine ⟨⟨pool, mint, vaults, signer, lqd, ini, rent, l10⟩, ?_, q3.1, ?_, b3, ?_, ?_, f4, Decidable.not_not.1 hr, ?_, ?_, k1,
      by rw [k2, q7.1], k3, k4, k5, k6, k7, k8,
      by cases k <;> exact k9⟩
    · simp only; rw [e0, q11]; simp
    · rw [← k4]; exact Decidable.not_not.1 hd
    · rw [k2]; exact b5
    · obtain ⟨t, t1, t2, t3, t4⟩ := r5
      obtain ⟨u, u1, u2⟩ := f5
      rw [t1] at u1; cases u1
      exact ⟨t, t1, u2, t2, t3, t4⟩
    · intro a ha
      simp only [List.mem_cons] at ha
      rcases ha with rfl | rfl | rfl | rfl | ha
      · exact r1
      · exact r2
      · exact r4
      · exact r6
      · exact r3 (a, ()) (List.mem_map.2 ⟨a, ha, rfl⟩)
    · omega
  · rintro ⟨rfl, B, hB⟩
    refine ⟨st, ?_, rfl⟩
    obtain ⟨pool, mint, vaults, signer, lqd, ini, rent, rest⟩ := B
    obtain ⟨h1, h2, h3, h4, h5, h6, h7, h8, h9, h10, g1, g2, g3, g4, g5, g6, g7, g8, g9⟩ := hB
    simp only at *
    unfold initPool
    have hassets : readAssets w'.toks vaults = .ok st.assets :=
      readAssets_ok.2 ⟨g2, fun x hx => by obtain ⟨t, t1, t2, _⟩ := h5 x hx; exact ⟨t, t1, t2⟩⟩
    obtain ⟨t, t1, t2, t3, t4, t5⟩ := h6
    simp only [bind_ok_iff, next_ok, nextN_ok, Prod.exists]
    refine ⟨pool, _, h1, mint, _, rfl, vaults, signer :: lqd :: ini :: rent :: rest, ⟨h2, by simp⟩, signer, _, rfl, lqd, _, rfl,
      ini, rent :: rest, rfl, st.assets, hassets, pool, mint, vaults, signer, lqd :: ini :: rent :: rest,
      baseContext_ok.2 ⟨by simp [h1], rfl, h4, g2.symm, h5, rfl⟩, lqd, _, rfl, ini, _, rfl, rent, rest, rfl, (),
      fees.2 ⟨rfl, rfl, ⟨t, t1, t2, .inl t3⟩, h7, t, t1, t2⟩, ?_⟩
    rw [if_neg (by simp [h8])]
    simp only [bind_ok_iff, checkExempt_ok, checkAll_ok, checkLqd_ok]
    refine ⟨(), h9 _ (by simp), (), h9 _ (by simp), (), fun p hp => ?_, (), h9 _ (by simp), (), ⟨t, t1, t3, t4, t5⟩, (),
      h9 _ (by simp), st, ?_, ?_⟩
    · obtain ⟨a, ha, rfl⟩ := List.mem_map.1 hp
      exact h9 _ (by simp [ha])
    · obtain ⟨m1, m2, m3, m4, m5, m6, m7, m8, m9, m10⟩ := st
      simp only at g1 g2 g3 g4 g5 g6 g7 g8 g9
      cases k with
      | simple => simp only at g9; simp [PoolKind.init, g1, g3, g4, g5, g6, g7, g8, g9]
      | admin =>
        simp only at g9
        obtain ⟨⟨a, l, e1, e2⟩, e3⟩ := g9
        simp [PoolKind.init, g1, g3, g4, g5, g6, g7, g8, e1, e2, e3]
    · unfold minFeeRate feeRateDenominator
      rw [if_neg (by simp [g4, h3]), if_neg (by omega), if_neg (by omega)]
      rfl

/-- C55: a pool is initialised once, and nothing else can be asked of an account that is not yet a pool. -/
theorem pool_once {E : PoolEnv} {k : PoolKind} {w : World} {accts : List AccMeta} :
    (∀ st r x, Pool.process E k (some st) w accts (.init r) ≠ .ok x) ∧
    ∀ r x, Pool.process E k none w accts r = .ok x → ∃ q, r = .init q := by
  refine ⟨fun st r x h => (by cases h), fun r x h => ?_⟩
  cases r with
  | init q => exact ⟨q, rfl⟩
  | _ => cases h

end Serum.Props

namespace Serum.Pool

/-! ### The admin -/

theorem undelegated_ok {l : Ledger} {xs : List Asset} {as : List AccMeta} {u : Unit} :
    checkUndelegated l xs as = .ok u ↔ ∃ vs rest, as = vs ++ rest ∧ vs.map (·.key) = xs.map (·.vault) ∧
      ∀ x ∈ xs, ∃ t, l x.vault = some t ∧ (t.delegate = none ∨ t.delegated = 0) := by
  induction xs generalizing as with
  | nil =>
    simp only [checkUndelegated, true_iff]
    exact ⟨[], as, rfl, rfl, by simp⟩
  | cons x xs ih =>
    cases as with
    | nil =>
      simp only [checkUndelegated]
      constructor
      · intro h; cases h
      · rintro ⟨vs, rest, h1, h2, _⟩
        have : vs = [] := by cases vs <;> simp_all
        subst this
        cases h2
    | cons a as =>
      simp only [checkUndelegated]
      constructor
      · intro h
        split at h
        · cases h
        rename_i hk
        have hk := Decidable.not_not.1 hk
        split at h
        · cases h
        rename_i t ht
        split at h
        · cases h
        rename_i hd
        obtain ⟨vs, rest, e1, e2, e3⟩ := ih.1 h
        refine ⟨a :: vs, rest, by simp [e1], by simp [hk, e2], ?_⟩
        simp only [List.mem_cons, forall_eq_or_imp]
        refine ⟨⟨t, hk ▸ ht, ?_⟩, e3⟩
        cases hdel : t.delegate with
        | none => exact .inl rfl
        | some d =>
          rw [hdel] at hd
          simp at hd
          exact .inr hd
      · rintro ⟨vs, rest, e1, e2, e3⟩
        cases vs with
        | nil => cases e2
        | cons v vs =>
          simp only [List.cons_append, List.cons.injEq] at e1
          simp only [List.map_cons, List.cons.injEq] at e2
          simp only [List.mem_cons, forall_eq_or_imp] at e3
          obtain ⟨rfl, e1⟩ := e1
          obtain ⟨⟨t, ht, hd⟩, e3⟩ := e3
          rw [if_neg (by simp [e2.1]), e2.1, ht]
          simp only
          rw [if_neg]
          · exact ih.2 ⟨vs, rest, e1, e2.2, e3⟩
          · rcases hd with h | h <;> simp [h]

theorem filter_shorter {xs : List Asset} {v : Nat} :
    (xs.filter (·.vault != v)).length = xs.length ↔ v ∉ xs.map (·.vault) := by
  rw [List.length_filter_eq_length_iff]
  simp only [List.mem_map, not_exists, not_and, bne_iff_ne, ne_eq]

theorem admin_request {E : PoolEnv} {st st' : PoolState} {w w' : World} {l : List AccMeta} {ix : AdminIx} :
    adminRequest E st w l ix = .ok (st', w') ↔ st.custom.isSome ∧ Administers E st w l ix st' w' := by
  cases hc : st.custom with
  | none =>
    unfold adminRequest
    rw [hc]
    simp
  | some paused =>
    have same : ∀ s : PoolState, s.custom = st.custom → { s with custom := some paused } = s := by
      intro s e
      rw [hc] at e
      cases s
      simp_all
    simp only [Option.isSome_some, true_and]
    unfold adminRequest
    rw [hc]
    cases ix with
    | pause =>
      simp only
      constructor
      · intro h; cases h; exact .pause l
      · intro h; cases h; rfl
    | unpause =>
      simp only [bind_ok_iff, undelegated_ok]
      constructor
      · rintro ⟨_, ⟨vs, rest, rfl, h1, h2⟩, h⟩
        cases h
        exact .unpause vs rest h1 h2
      · intro h
        cases h with
        | unpause vs rest h1 h2 => exact ⟨(), ⟨vs, rest, rfl, h1, h2⟩, rfl⟩
    | approveDelegate n =>
      simp only [bind_ok_iff, next_ok, Prod.exists]
      constructor
      · rintro ⟨v, l1, rfl, d, l2, rfl, s, l3, rfl, p, l4, rfl, h⟩
        split at h
        · cases h
        rename_i h1
        split at h
        · cases h
        rename_i h2
        split at h
        · cases h
        rename_i h3
        obtain ⟨t', h4, h⟩ := bind_ok h
        cases h
        unfold splApprove at h4
        split at h4
        · cases h4
        rename_i t ht
        split at h4
        · cases h4
        rename_i h5
        cases h4
        simp only [Bool.or_eq_true, bne_iff_ne, ne_eq, not_or, Decidable.not_not, Bool.not_eq_true] at h5
        refine .approve v d s p l4 n t ?_ (Decidable.not_not.1 h2) (Decidable.not_not.1 h3) ht h5.2 h5.1
        simpa using h1
      · intro h
        cases h with
        | approve v d s p l n t hv hs hp ht ho hf =>
          refine ⟨v, _, rfl, d, _, rfl, s, _, rfl, p, l, rfl, ?_⟩
          rw [if_neg (by simpa using hv), if_neg (by simp [hs]), if_neg (by simp [hp])]
          unfold splApprove
          simp only [ht, hf, ho]
          simp [bind, Except.bind, pure, Except.pure]
    | addAsset =>
      simp only [bind_ok_iff, next_ok, Prod.exists]
      constructor
      · rintro ⟨v, l1, rfl, h⟩
        split at h
        · cases h
        rename_i t ht
        split at h
        · cases h
        rename_i h1
        split at h
        · cases h
        rename_i h2
        simp only [Except.ok.injEq, Prod.mk.injEq] at h
        obtain ⟨h3, rfl⟩ := h
        have e := same { st with assets := st.assets ++ [⟨t.mint, v.key⟩] } rfl
        simp only at e
        rw [e] at h3
        subst h3
        simp only [List.any_eq_true, Bool.or_eq_true, beq_iff_eq, not_exists, not_and, not_or] at h1
        refine .add v l1 t ht (Decidable.not_not.1 h2) ?_ ?_
        · intro hm
          obtain ⟨x, hx, e⟩ := List.mem_map.1 hm
          exact (h1 x hx).1 e
        · intro hm
          obtain ⟨x, hx, e⟩ := List.mem_map.1 hm
          exact (h1 x hx).2 e
      · intro h
        cases h with
        | add v l t ht ho hv hm =>
          refine ⟨v, l, rfl, ?_⟩
          simp only [ht]
          rw [if_neg, if_neg (by simp [ho])]
          · have e := same { st with assets := st.assets ++ [⟨t.mint, v.key⟩] } rfl
            simp only at e
            rw [e]
          · simp only [List.any_eq_true, Bool.or_eq_true, beq_iff_eq, not_exists, not_and, not_or]
            exact fun x hx => ⟨fun e => hv (List.mem_map.2 ⟨x, hx, e⟩), fun e => hm (List.mem_map.2 ⟨x, hx, e⟩)⟩
    | removeAsset =>
      simp only [bind_ok_iff, next_ok, Prod.exists, filter_shorter]
      have fl : ∀ v : Nat, st.assets.filter (·.vault != v) = st.assets.filter (·.vault ≠ v) := by
        intro v
        congr 1
        funext x
        by_cases e : x.vault = v <;> simp [e]
      constructor
      · rintro ⟨v, l1, rfl, h⟩
        split at h
        · cases h
        rename_i t ht
        split at h
        · cases h
        rename_i h1
        split at h
        · cases h
        rename_i h2
        simp only [Except.ok.injEq, Prod.mk.injEq] at h
        obtain ⟨h3, rfl⟩ := h
        have e := same { st with assets := st.assets.filter (·.vault != v.key) } rfl
        simp only at e
        rw [e, fl] at h3
        subst h3
        exact .remove v l1 (Decidable.not_not.1 h2) (by simp [ht]) (by unfold bal; rw [ht]; simp only; omega)
      · intro h
        cases h with
        | remove v l hv he hb =>
          refine ⟨v, l, rfl, ?_⟩
          unfold bal at hb
          cases ht : w.toks v.key with
          | none => exact absurd ht he
          | some t =>
            rw [ht] at hb
            simp only at hb ⊢
            rw [if_neg (by omega), if_neg (by simpa using hv)]
            have e := same { st with assets := st.assets.filter (·.vault != v.key) } rfl
            simp only at e
            rw [e, fl]
    | updateFee rate =>
      simp only
      unfold minFeeRate feeRateDenominator
      constructor
      · intro h
        split at h
        · cases h
        split at h
        · cases h
        simp only [Except.ok.injEq, Prod.mk.injEq] at h
        obtain ⟨h3, rfl⟩ := h
        have e := same { st with feeRate := rate } rfl
        simp only at e
        rw [e] at h3
        subst h3
        exact .fee l rate (by omega)
      · intro h
        cases h with
        | fee l rate hr =>
          rw [if_neg (by omega), if_neg (by omega)]
          have e := same { st with feeRate := rate } rfl
          simp only at e
          rw [e]
    | updateAdmin =>
      simp only [bind_ok_iff, next_ok, Prod.exists]
      constructor
      · rintro ⟨a, l1, rfl, h⟩
        split at h
        · cases h
        rename_i h1
        simp only [Except.ok.injEq, Prod.mk.injEq] at h
        obtain ⟨h3, rfl⟩ := h
        have e := same { st with admin := some a.key } rfl
        simp only at e
        rw [e] at h3
        subst h3
        exact .handOver a l1 (by simpa using h1)
      · intro h
        cases h with
        | handOver a l ha =>
          refine ⟨a, l, rfl, ?_⟩
          rw [if_neg (by simp [ha])]
          have e := same { st with admin := some a.key } rfl
          simp only at e
          rw [e]

end Serum.Pool

namespace Serum.Props
open Serum.Pool

/-- C56: exactly what the admin can do, with exactly which effect: the admin's signature is always needed. -/
theorem pool_admin {E : PoolEnv} {st st' : PoolState} {w w' : World} {accts : List AccMeta} {ix : AdminIx} :
    Pool.process E .admin (some st) w accts (.admin ix) = .ok (some st', w') ↔
      ∃ pool a l, accts = pool :: a :: l ∧ st.admin = some a.key ∧ a.signer = true ∧ st.custom.isSome ∧
        Administers E st w l ix st' w' := by
  simp only [Pool.process, bind_ok_iff, admin, Prod.exists, next_ok]
  constructor
  · rintro ⟨s1, w1, ⟨pool, l1, rfl, a, l, rfl, h⟩, e⟩
    cases e
    split at h
    · cases h
    rename_i h1
    split at h
    · cases h
    rename_i h2
    obtain ⟨h3, h4⟩ := admin_request.1 h
    exact ⟨pool, a, l, rfl, Decidable.not_not.1 h1, by simpa using h2, h3, h4⟩
  · rintro ⟨pool, a, l, rfl, h1, h2, h3, h4⟩
    refine ⟨st', w', ⟨pool, _, rfl, a, l, rfl, ?_⟩, rfl⟩
    rw [if_neg (by simp [h1]), if_neg (by simp [h2])]
    exact admin_request.2 ⟨h3, h4⟩

/-- C56: nothing but the admin's instructions changes a pool's state; they move no tokens and mint none. -/
theorem pool_state {E : PoolEnv} {k : PoolKind} {st : PoolState} {s' : Option PoolState} {w w' : World} {accts : List AccMeta}
    {r : Req} (h : Pool.process E k (some st) w accts r = .ok (s', w')) :
    (s' = some st ∧ ((∃ act, r = .getBasket act) ∧ w' = w ∨ ∃ act, r = .exec act ∧ execute E k st w accts act = .ok w')) ∨
    (k = .admin ∧ ∃ ix st' pool a l, r = .admin ix ∧ s' = some st' ∧ accts = pool :: a :: l ∧ st.admin = some a.key ∧
      a.signer = true ∧ Administers E st w l ix st' w' ∧ (∀ b, bal w'.toks b = bal w.toks b) ∧ w'.supply = w.supply ∧
      w'.minter = w.minter) := by
  cases r with
  | init r => cases h
  | getBasket act =>
    simp only [Pool.process] at h
    obtain ⟨_, h1, h⟩ := bind_ok h
    cases h
    exact .inl ⟨rfl, .inl ⟨⟨act, rfl⟩, rfl⟩⟩
  | exec act =>
    simp only [Pool.process] at h
    obtain ⟨w1, h1, h⟩ := bind_ok h
    cases h
    exact .inl ⟨rfl, .inr ⟨act, rfl, h1⟩⟩
  | admin ix =>
    cases k with
    | simple => cases h
    | admin =>
      have h' := h
      simp only [Pool.process] at h'
      obtain ⟨⟨st1, w1⟩, h1, h'⟩ := bind_ok h'
      cases h'
      obtain ⟨pool, a, l, e1, e2, e3, _, e4⟩ := pool_admin.1 h
      refine .inr ⟨rfl, ix, st1, pool, a, l, rfl, rfl, e1, e2, e3, e4, ?_⟩
      cases e4 with
      | approve v d s p l n t hv hs hp ht ho hf =>
        refine ⟨fun b => ?_, rfl, rfl⟩
        rw [bal_put]
        split
        · rename_i e; subst e; unfold bal; rw [ht]
        · rfl
      | _ => exact ⟨fun _ => rfl, rfl, rfl⟩

/-- C56: a paused pool creates and redeems nothing, and quotes nothing. -/
theorem paused_refuses {E : PoolEnv} {st : PoolState} {w : World} {accts : List AccMeta} {act : Action}
    (hp : st.custom ≠ some false) :
    (∀ x, execute E .admin st w accts act ≠ .ok x) ∧ ∀ qs, getBasket E .admin st w accts act ≠ .ok qs := by
  have hb : ∀ n up vs, PoolKind.basket .admin st w n up vs = .error .programError := by
    intro n up vs
    unfold PoolKind.basket PoolKind.open
    rw [if_neg (by simpa using hp)]
  constructor
  · intro x h
    unfold execute at h
    obtain ⟨A, h1, h⟩ := bind_ok h
    cases act with
    | create n =>
      simp only [processCreation, hb] at h
      cases h
    | redeem n =>
      simp only [processRedemption, hb] at h
      obtain ⟨f, h2, h⟩ := bind_ok h
      cases h
    | swap l => cases h
  · intro qs h
    unfold getBasket at h
    obtain ⟨_, h1, h⟩ := bind_ok h
    obtain ⟨_, h2, h⟩ := bind_ok h
    obtain ⟨_, h3, h⟩ := bind_ok h
    simp only at h
    split at h
    · cases h
    obtain ⟨_, h4, h⟩ := bind_ok h
    obtain ⟨_, h5, h⟩ := bind_ok h
    cases act <;> simp [hb] at h

/-- C55: mint, authority and fee vaults of a pool never change, the fee rate stays within its limits, and a simple
pool never changes at all. -/
theorem pool_identity {E : PoolEnv} {k : PoolKind} {ok} {s s' : PoolState × World} (h : Calls E k ok s s') :
    s'.1.mint = s.1.mint ∧ s'.1.signer = s.1.signer ∧ s'.1.nonce = s.1.nonce ∧ s'.1.params = s.1.params ∧
    s'.1.lqdVault = s.1.lqdVault ∧ s'.1.initVault = s.1.initVault ∧
    (150 ≤ s.1.feeRate ∧ s.1.feeRate < 1000000 → 150 ≤ s'.1.feeRate ∧ s'.1.feeRate < 1000000) ∧
    (k = .simple → s'.1 = s.1) := by
  induction h with
  | refl => simp
  | step _ hc _ ih =>
    obtain ⟨i1, i2, i3, i4, i5, i6, i7, i8⟩ := ih
    cases hc with
    | token hs h => exact ⟨i1, i2, i3, i4, i5, i6, i7, i8⟩
    | request hk hn h =>
      rcases pool_state h with ⟨e, _⟩ | ⟨rfl, ix, st1, pool, a, l, _, e, _, _, _, hA, _⟩
      · cases e
        exact ⟨i1, i2, i3, i4, i5, i6, i7, i8⟩
      · cases e
        cases hA with
        | fee l rate hr => exact ⟨i1, i2, i3, i4, i5, i6, fun _ => hr, fun e => (by cases e)⟩
        | _ => exact ⟨i1, i2, i3, i4, i5, i6, i7, fun e => (by cases e)⟩

/-- C55: at every moment of a pool's life the authority is the derived address and the fee rate is in its range. -/
theorem pool_life {E : PoolEnv} {k : PoolKind} {ok} {pk : Nat} {s s' : PoolState × World} (hb : Born E k pk s)
    (h : Calls E k ok s s') :
    E.derive pk s'.1.nonce = some s'.1.signer ∧ 150 ≤ s'.1.feeRate ∧ s'.1.feeRate < 1000000 ∧
    s'.2.minter = some s'.1.signer := by
  obtain ⟨accts, r, B, _, hB, rfl⟩ := hb
  have hid := pool_identity h
  obtain ⟨i1, i2, i3, i4, i5, i6, i7, i8⟩ := hid
  have hrate := i7 (by rw [hB.rate]; exact hB.bounds)
  refine ⟨by rw [i3, i2, hB.nonce, hB.signer]; exact hB.derived, hrate.1, hrate.2, ?_⟩
  rw [i2]
  clear i1 i2 i3 i4 i5 i6 i7 i8 hrate
  induction h with
  | refl => rw [hB.minter, hB.signer]
  | step hpre hc _ ih =>
    have hsg := (pool_identity hpre).2.1
    cases hc with
    | token hs h =>
      simp only at hsg ih ⊢
      exact (h.effect ih (by rw [← hsg]; exact hs)).2.2.trans ih
    | request hk hn h =>
      simp only at hsg ih ⊢
      rcases pool_state h with ⟨e, ⟨_, e2⟩ | ⟨act, e2, e3⟩⟩ | ⟨rfl, ix, st1, pool, a, l, _, e, _, _, _, hA, _, _, e5⟩
      · rw [e2]; exact ih
      · unfold execute at e3
        obtain ⟨A, h1, e3⟩ := bind_ok e3
        have hp := execContext_ok.1 h1
        cases act with
        | create n =>
          obtain ⟨_, _, _, hc, _⟩ := creation_ok (hn n (.inl e2)) hp e3
          rw [hc.minter]; exact ih
        | redeem n =>
          obtain ⟨_, _, _, hc, _⟩ := redemption_ok (hn n (.inr e2)) hp e3
          rw [hc.minter]; exact ih
        | swap l => cases e3
      · rw [e5]; exact ih

end Serum.Props
