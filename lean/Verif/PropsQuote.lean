import Verif.PoolQuote
import Verif.PropsShares
import Verif.PropsPoolLive

/-!
C89: a pool's quotes. When a pool answers `GetBasket` and with what, how the answer is delivered, and what it is worth.
-/

namespace Serum.Pool

/-- What `GetBasket` asks for: so many pool tokens, rounded up or down. -/
def Action.asks : Action → Option (Nat × Bool)
  | .create n => some (n, true)
  | .redeem n => some (n, false)
  | .swap _ => none

/-- The accounts of a `GetBasket` as documented, `schema.rs` 161-170. -/
structure QuoteAccts (E : PoolEnv) (st : PoolState) (w : World) (accts : List AccMeta) (buf prog : AccMeta) : Prop where
  listed : ∃ pool mint vaults auth params rest, accts = pool :: mint :: vaults ++ auth :: buf :: prog :: params ++ rest ∧
    mint.key = st.mint ∧ vaults.map (·.key) = st.assets.map (·.vault) ∧ auth.key = st.signer ∧
    params.map (·.key) = st.params
  minter : w.minter = some st.signer
  vaults : ∀ x ∈ st.assets, Spends w.toks x.mint st.signer x.vault
  owner : E.programOf buf.key = prog.key

/-- The right quantities for `n` pool tokens: exact shares of what the vaults hold, rounded up or down, that fit. -/
structure Quoted (k : PoolKind) (st : PoolState) (w : World) (n : Nat) (up : Bool) (qs : List Nat) : Prop where
  running : k = .admin → st.custom = some false
  alive : 0 < w.supply
  length : qs.length = st.assets.length
  price : ∀ p ∈ vaultSide st qs, (if up then IsCeil (bal w.toks p.1 * n) w.supply p.2
    else IsFloor (bal w.toks p.1 * n) w.supply p.2) ∧ p.2 < 2 ^ 63

theorem simpleBasket_keys (w : World) (n : Nat) (up : Bool) : ∀ as bs : List AccMeta, as.map (·.key) = bs.map (·.key) →
    simpleBasket w n up as = simpleBasket w n up bs := by
  intro as
  induction as with
  | nil => intro bs e; cases bs <;> simp_all
  | cons a as ih =>
    intro bs e
    cases bs with
    | nil => simp at e
    | cons b bs =>
      simp only [List.map_cons, List.cons.injEq] at e
      simp only [simpleBasket, e.1, ih bs e.2]

/-- Vault balances and supply are 64-bit numbers. -/
structure PoolFits (st : PoolState) (w : World) : Prop where
  supply : w.supply < W64
  vaults : ∀ x ∈ st.assets, bal w.toks x.vault < W64

theorem share_iff {amount n s q : Nat} {up : Bool} (hs : 0 < s) (ha : amount < W64) (hn : n < W64) (hs' : s < W64) :
    share amount n s up = .ok q ↔
      (if up then IsCeil (amount * n) s q else IsFloor (amount * n) s q) ∧ q < 2 ^ 63 := by
  have hbig : amount * n + (s - 1) < 2 ^ 128 := by
    have h1 : amount * n ≤ (W64 - 1) * (W64 - 1) := Nat.mul_le_mul (by omega) (by omega)
    have h2 : (W64 - 1) * (W64 - 1) + W64 ≤ 2 ^ 128 := by unfold W64; decide
    omega
  constructor
  · intro h
    refine ⟨?_, ?_⟩
    · cases up
      · simpa using share_down (by omega) h
      · simpa using share_up (by omega) h
    · unfold share at h
      simp only at h
      by_cases hc : amount * n + (if up = true then s - 1 else 0) < 2 ^ 128 ∧
          (amount * n + (if up = true then s - 1 else 0)) / s < 2 ^ 63
      · rw [if_pos hc] at h
        injection h with h
        rw [← h]
        exact hc.2
      · rw [if_neg hc] at h
        cases h
  · rintro ⟨h1, h2⟩
    unfold share
    have hq : (amount * n + (if up = true then s - 1 else 0)) / s = q := by
      refine (Nat.div_eq_iff hs).2 ?_
      have e : (q + 1) * s = q * s + s := Nat.succ_mul _ _
      cases up
      · simp only [Bool.false_eq_true, if_false, IsFloor] at h1 ⊢
        constructor <;> omega
      · simp only [if_true, IsCeil] at h1 ⊢
        constructor <;> omega
    simp only
    rw [hq, if_pos]
    refine ⟨?_, h2⟩
    split <;> omega

theorem basket_iff {w : World} {n : Nat} {up : Bool} {vs : List AccMeta} {qs : List Nat} (h0 : 0 < w.supply)
    (hv : ∀ v ∈ vs, (w.toks v.key).isSome) :
    simpleBasket w n up vs = .ok qs ↔ qs.length = vs.length ∧
      ∀ p ∈ (vs.map (·.key)).zip qs, share (bal w.toks p.1) n w.supply up = .ok p.2 := by
  refine ⟨fun h => (basket_ok h).2, ?_⟩
  induction vs generalizing qs with
  | nil =>
    rintro ⟨h1, _⟩
    have : qs = [] := by simpa using h1
    subst this
    unfold simpleBasket
    rw [if_neg (by omega)]
  | cons v vs ih =>
    rintro ⟨h1, h2⟩
    match qs, h1 with
    | [], h1 => simp at h1
    | q :: qs, h1 =>
      simp only [List.map_cons, List.zip_cons_cons, List.mem_cons, forall_eq_or_imp] at h2
      obtain ⟨t, ht⟩ := Option.isSome_iff_exists.1 (hv v List.mem_cons_self)
      have hb : bal w.toks v.key = t.amount := by unfold bal; rw [ht]
      unfold simpleBasket
      rw [if_neg (by omega), ht]
      simp only
      rw [← hb, h2.1, ih (fun x hx => hv x (List.mem_cons_of_mem _ hx)) ⟨by simpa using h1, h2.2⟩]
      rfl

end Serum.Pool

namespace Serum.Props
open Serum.Pool

/-- C89. When a pool answers `GetBasket`, and with what: exactly if it gets the documented accounts, is not paused, has
pool tokens, and every share fits; then with the exact shares, rounded up for a creation and down for a redemption. Swaps
are not quoted. No signature is asked for. -/
theorem quote_iff {E : PoolEnv} {k : PoolKind} {st : PoolState} {w : World} (hf : PoolFits st w) {accts : List AccMeta}
    {act : Action} {n : Nat} {up : Bool} (ha : act.asks = some (n, up)) (hn : n < W64) {qs : List Nat} :
    getBasket E k st w accts act = .ok qs ↔
      (∃ buf prog, QuoteAccts E st w accts buf prog) ∧ Quoted k st w n up qs := by
  revert ha
  have hact : act.asks = some (n, up) → ∀ vaults, (match act with
      | .create n => k.basket st w n true vaults
      | .redeem n => k.basket st w n false vaults
      | .swap _ => .error .programError) = k.basket st w n up vaults := by
    intro ha vaults
    cases act <;> simp only [Action.asks, Option.some.injEq, Prod.mk.injEq, reduceCtorEq] at ha
    · obtain ⟨rfl, rfl⟩ := ha; rfl
    · obtain ⟨rfl, rfl⟩ := ha; rfl
  intro ha
  replace hact := hact ha
  have hbasket : ∀ vaults : List AccMeta, vaults.map (·.key) = st.assets.map (·.vault) →
      (∀ x ∈ st.assets, Spends w.toks x.mint st.signer x.vault) →
      (k.basket st w n up vaults = .ok qs ↔ Quoted k st w n up qs) := by
    intro vaults hv hs
    have hsome : ∀ v ∈ vaults, (w.toks v.key).isSome := by
      intro v hm
      have hm' : v.key ∈ st.assets.map (·.vault) := by rw [← hv]; exact List.mem_map.2 ⟨v, hm, rfl⟩
      obtain ⟨x, hx, e⟩ := List.mem_map.1 hm'
      obtain ⟨t, t1, _⟩ := hs x hx
      rw [← e, t1]
      rfl
    have hbal : ∀ p ∈ vaultSide st qs, bal w.toks p.1 < W64 := by
      intro p hp
      obtain ⟨x, hx, e⟩ := List.mem_map.1 (List.of_mem_zip hp).1
      rw [← e]
      exact hf.vaults x hx
    have hlen : vaults.length = st.assets.length := by simpa using congrArg List.length hv
    constructor
    · intro h
      obtain ⟨h1, h2⟩ := kind_basket_ok h
      obtain ⟨b1, b2, b3⟩ := basket_ok h2
      rw [hv] at b3
      refine ⟨h1, by omega, by omega, fun p hp => ?_⟩
      exact (share_iff (by omega) (hbal p hp) hn hf.supply).1 (b3 p hp)
    · intro h
      have ho : k.open st = true := by
        cases k
        · rfl
        · simp [PoolKind.open, h.running rfl]
      unfold PoolKind.basket
      rw [if_pos ho]
      refine (basket_iff h.alive hsome).2 ⟨by rw [h.length, hlen], fun p hp => ?_⟩
      rw [hv] at hp
      exact (share_iff h.alive (hbal p hp) hn hf.supply).2 (h.price p hp)
  constructor
  · intro h
    unfold getBasket at h
    obtain ⟨⟨pool, mint, vaults, auth, l⟩, g1, h⟩ := bind_ok h
    obtain ⟨⟨buf, l1⟩, g2, h⟩ := bind_ok h
    obtain ⟨⟨prog, l2⟩, g3, h⟩ := bind_ok h
    simp only at h
    split at h
    · cases h
    rename_i hown
    obtain ⟨⟨ps, l3⟩, g4, h⟩ := bind_ok h
    obtain ⟨_, g5, h⟩ := bind_ok h
    replace h : k.basket st w n up vaults = .ok qs := (hact vaults).symm.trans h
    obtain ⟨b1, b2, b3, b4, b5, b6⟩ := baseContext_ok.1 g1
    rw [next_ok] at g2 g3
    rw [nextN_ok] at g4
    rw [checkAll_ok] at g5
    simp only [checkAddr_ok] at g5
    have hp := (zip_keys (g := id) g4.1).1 g5
    simp only at g2 g3 g4
    refine ⟨⟨buf, prog, ⟨pool, mint, vaults, auth, ps, l3, ?_, b2, b4, b6, by simpa using hp⟩, b3, b5,
      Decidable.not_not.1 hown⟩, (hbasket vaults b4 b5).1 h⟩
    simp [b1, g2, g3, g4.2]
  · rintro ⟨⟨buf, prog, ⟨pool, mint, vaults, auth, params, rest, e, e1, e2, e3, e4⟩, m, vs, ow⟩, hq⟩
    have hbase : baseContext st w accts = .ok (pool, mint, vaults, auth, buf :: prog :: params ++ rest) :=
      baseContext_ok.2 ⟨by simp [e], e1, m, e2, vs, e3⟩
    have hpl : params.length = st.params.length := by simpa using congrArg List.length e4
    unfold getBasket
    rw [hbase]
    simp only [bind_ok_iff, next_ok, Prod.exists, Except.ok.injEq, Prod.mk.injEq]
    refine ⟨_, _, _, _, _, ⟨rfl, rfl, rfl, rfl, rfl⟩, buf, _, rfl, prog, _, rfl, ?_⟩
    rw [if_neg (by simp [ow])]
    simp only [bind_ok_iff, nextN_ok, Prod.exists]
    refine ⟨params, rest, ⟨hpl, rfl⟩, (), checkAll_ok.2 ?_, ?_⟩
    · simp only [checkAddr_ok]
      exact (zip_keys (g := id) hpl).2 (by simpa using e4)
    · exact (hact vaults).trans ((hbasket vaults e2 vs).2 hq)

/-- C89. How the answer is delivered: by one call to the program that owns the return buffer, which is given nothing but
the buffer and no signature; its data is offset 0 and then the basket, from which exactly this basket is read. -/
theorem quote_delivered {E : PoolEnv} {k : PoolKind} {st : PoolState} {w : World} (hf : PoolFits st w) {accts : List AccMeta}
    {act : Action} {n : Nat} {up : Bool} (ha : act.asks = some (n, up)) (hn : n < W64)
    (hlen : st.assets.length < 2 ^ 32) {c : Call} :
    answer E k st w accts act = .ok c ↔ ∃ buf prog qs, QuoteAccts E st w accts buf prog ∧ Quoted k st w n up qs ∧
      c.prog = E.programOf buf.key ∧ c.metas = [⟨buf.key, false, true⟩] ∧ ofLe (c.data.take 8) = 0 ∧
      basketCodec.all (c.data.drop 8) = some qs ∧ 8 ≤ c.data.length := by
  have call : ∀ {buf prog : AccMeta} (qs : List Nat), QuoteAccts E st w accts buf prog →
      quoteCall st accts qs = some { prog := prog.key, metas := [wr buf.key], data := quoteData qs } := by
    intro buf prog qs h
    obtain ⟨pool, mint, vaults, auth, params, rest, e, _, e2, _⟩ := h.listed
    have hl : vaults.length = st.assets.length := by simpa using congrArg List.length e2
    have h1 : accts[3 + st.assets.length]? = some buf := by
      rw [e, ← hl, show 3 + vaults.length = vaults.length + 1 + 1 + 1 by omega]
      simp
    have h2 : accts[4 + st.assets.length]? = some prog := by
      rw [e, ← hl, show 4 + vaults.length = vaults.length + 2 + 1 + 1 by omega]
      simp
    unfold quoteCall
    rw [h1, h2]
    rfl
  have hlaw : Borsh.Lawful basketCodec := Borsh.lawful_vec (Borsh.lawful_uint 8)
  have hok : ∀ {qs}, Quoted k st w n up qs → basketCodec.ok qs := by
    intro qs h
    refine ⟨?_, fun q hq => ?_⟩
    · have := h.length
      omega
    · obtain ⟨i, hi, rfl⟩ := List.getElem_of_mem hq
      have hi' : i < st.assets.length := by rw [← h.length]; exact hi
      have := (h.price (st.assets[i].vault, qs[i]) (List.mem_iff_getElem.2 ⟨i, by simp [vaultSide]; omega, by
        simp [vaultSide]⟩)).2
      simp only at this
      show qs[i] < 256 ^ 8
      omega
  have data : ∀ qs, (quoteData qs).take 8 = List.replicate 8 0 ∧ (quoteData qs).drop 8 = basketCodec.enc qs ∧
      8 ≤ (quoteData qs).length := by
    intro qs
    unfold quoteData
    refine ⟨by simp, by simp, by simp⟩
  have zero : ofLe (List.replicate 8 (0 : UInt8)) = 0 := by decide
  constructor
  · intro h
    unfold answer at h
    obtain ⟨qs, h1, h⟩ := bind_ok h
    obtain ⟨⟨buf, prog, hA⟩, hQ⟩ := (quote_iff hf ha hn).1 h1
    rw [call qs hA] at h
    cases h
    obtain ⟨d1, d2, d3⟩ := data qs
    refine ⟨buf, prog, qs, hA, hQ, hA.owner.symm, rfl, ?_, ?_, d3⟩
    · show ofLe ((quoteData qs).take 8) = 0
      rw [d1, zero]
    · show basketCodec.all ((quoteData qs).drop 8) = some qs
      rw [d2]
      exact hlaw.all.2 ⟨hok hQ, rfl⟩
  · rintro ⟨buf, prog, qs, hA, hQ, c1, c2, c3, c4, c5⟩
    unfold answer
    rw [(quote_iff hf ha hn).2 ⟨⟨buf, prog, hA⟩, hQ⟩]
    show (match quoteCall st accts qs with | some c => Except.ok c | none => Except.error Err.programError) = _
    rw [call qs hA]
    obtain ⟨_, e4⟩ := hlaw.all.1 c4
    have e3 : c.data.take 8 = List.replicate 8 0 := by
      have hl8 : (c.data.take 8).length = 8 := by rw [List.length_take]; omega
      generalize c.data.take 8 = d at *
      have hb := leBytes_ofLe d
      rw [c3, hl8] at hb
      rw [← hb]
      decide
    have : c.data = quoteData qs := by
      unfold quoteData
      rw [← e3, ← e4, List.take_append_drop]
    cases c
    simp only at c1 c2 this
    subst c2 this
    rw [c1, hA.owner]
    rfl

/-- C89. The basket quoted for a creation is the basket charged (`quoted_creation`). The basket quoted for redeeming `n` pool
tokens is not what redeeming `n` pays: it leaves out the fee. A redemption pays what is quoted for `n` less its fee, which
is at most what is quoted for `n`. -/
theorem quoted_redemption {E : PoolEnv} {k : PoolKind} {st : PoolState} {w w' : World} (hf : PoolFits st w)
    {accts accts' : List AccMeta} {n : Nat} {qs : List Nat} (hn : n < W64)
    (hq : getBasket E k st w accts' (.redeem n) = .ok qs) (h : execute E k st w accts (.redeem n) = .ok w') :
    ∃ A f paid, Parsed E st w accts A ∧ Redeems k st w A n paid f w' ∧
      getBasket E k st w accts' (.redeem (n - f.sum)) = .ok paid ∧ paid.length = qs.length ∧
      ∀ p ∈ paid.zip qs, p.1 ≤ p.2 := by
  obtain ⟨A, paid, f, hp, hr⟩ := pool_redeem hn h
  obtain ⟨hA, hQ⟩ := (quote_iff hf (act := .redeem n) rfl hn).1 hq
  have hn' : n - f.sum < W64 := by omega
  have hlen : paid.length = qs.length := by rw [hr.basket, hQ.length]
  have hle : ∀ i (h1 : i < paid.length) (h2 : i < qs.length), paid[i] ≤ qs[i] := by
    intro i h1 h2
    have hi : i < st.assets.length := by rw [← hr.basket]; exact h1
    have p1 := hr.price (st.assets[i].vault, paid[i]) (List.mem_iff_getElem.2 ⟨i, by simp [vaultSide]; omega, by
      simp [vaultSide]⟩)
    have p2 := (hQ.price (st.assets[i].vault, qs[i]) (List.mem_iff_getElem.2 ⟨i, by simp [vaultSide]; omega, by
      simp [vaultSide]⟩)).1
    simp only [Bool.false_eq_true, if_false, IsFloor] at p1 p2
    have hm : bal w.toks st.assets[i].vault * (n - f.sum) ≤ bal w.toks st.assets[i].vault * n :=
      Nat.mul_le_mul_left _ (Nat.sub_le _ _)
    have : paid[i] * w.supply < (qs[i] + 1) * w.supply := by
      have : (qs[i] + 1) * w.supply = qs[i] * w.supply + w.supply := Nat.succ_mul _ _
      omega
    have := Nat.lt_of_mul_lt_mul_right this
    omega
  refine ⟨A, f, paid, hp, hr, (quote_iff hf (act := .redeem (n - f.sum)) rfl hn').2 ⟨hA, hQ.running, hQ.alive,
    hr.basket, fun p hpm => ⟨by simpa using hr.price p hpm, ?_⟩⟩, hlen, ?_⟩
  · obtain ⟨i, hi, rfl⟩ := List.getElem_of_mem hpm
    simp only [vaultSide, List.length_zip, List.length_map] at hi
    have h2 : i < qs.length := by omega
    have := hle i (by omega) h2
    have p2 := (hQ.price (st.assets[i].vault, qs[i]) (List.mem_iff_getElem.2 ⟨i, by simp [vaultSide]; omega, by
      simp [vaultSide]⟩)).2
    simp only [vaultSide, List.getElem_zip]
    simp only at p2
    omega
  · intro p hpm
    obtain ⟨i, hi, rfl⟩ := List.getElem_of_mem hpm
    simp only [List.length_zip] at hi
    simp only [List.getElem_zip]
    exact hle i (by omega) (by omega)

/-- C89. Quotes are sound in the direction that protects the pool: what is quoted for a redemption is never more than what
is quoted for the creation of the same quantity, asset by asset, and differs by at most one unit. -/
theorem quotes_spread {E : PoolEnv} {k : PoolKind} {st : PoolState} {w : World} (hf : PoolFits st w)
    {accts accts' : List AccMeta} {n : Nat} {buy sell : List Nat} (hn : n < W64)
    (hb : getBasket E k st w accts (.create n) = .ok buy) (hs : getBasket E k st w accts' (.redeem n) = .ok sell) :
    buy.length = sell.length ∧ ∀ p ∈ buy.zip sell, p.2 ≤ p.1 ∧ p.1 ≤ p.2 + 1 := by
  obtain ⟨_, hB⟩ := (quote_iff hf (act := .create n) rfl hn).1 hb
  obtain ⟨_, hS⟩ := (quote_iff hf (act := .redeem n) rfl hn).1 hs
  refine ⟨by rw [hB.length, hS.length], fun p hp => ?_⟩
  obtain ⟨i, hi, rfl⟩ := List.getElem_of_mem hp
  simp only [List.length_zip] at hi
  simp only [List.getElem_zip]
  have h1 := hB.length
  have h2 := hS.length
  have p1 := (hB.price (st.assets[i].vault, buy[i]) (List.mem_iff_getElem.2 ⟨i, by simp [vaultSide]; omega, by
    simp [vaultSide]⟩)).1
  have p2 := (hS.price (st.assets[i].vault, sell[i]) (List.mem_iff_getElem.2 ⟨i, by simp [vaultSide]; omega, by
    simp [vaultSide]⟩)).1
  simp only [if_true, IsCeil] at p1
  simp only [Bool.false_eq_true, if_false, IsFloor] at p2
  have a := hB.alive
  constructor
  · have : sell[i] * w.supply < (buy[i] + 1) * w.supply := by
      have : (buy[i] + 1) * w.supply = buy[i] * w.supply + w.supply := Nat.succ_mul _ _
      omega
    have := Nat.lt_of_mul_lt_mul_right this
    omega
  · have : buy[i] * w.supply < (sell[i] + 2) * w.supply := by
      have : (sell[i] + 2) * w.supply = (sell[i] + 1) * w.supply + w.supply := Nat.succ_mul _ _
      have : (sell[i] + 1) * w.supply = sell[i] * w.supply + w.supply := Nat.succ_mul _ _
      omega
    have := Nat.lt_of_mul_lt_mul_right this
    omega

/-! ### Cases -/

namespace PoolDemo

/-- Asking the pool of `PropsShares`: buffer 60, owned by program 5. -/
def askAccts : List AccMeta := [4, 1, 20, 21, 9, 60, 5].map (⟨·, false⟩)

end PoolDemo

/-- 33 pool tokens cost 330 and 257; redeeming 33 is quoted 330 and 256. Redeeming 10 pays what is quoted for 9: 90 and 69. -/
example : PoolFits PoolDemo.st PoolDemo.w ∧
    (getBasket PoolDemo.E .simple PoolDemo.st PoolDemo.w PoolDemo.askAccts (.create 33)).toOption = some [330, 257] ∧
    (getBasket PoolDemo.E .simple PoolDemo.st PoolDemo.w PoolDemo.askAccts (.redeem 33)).toOption = some [330, 256] ∧
    (getBasket PoolDemo.E .simple PoolDemo.st PoolDemo.w PoolDemo.askAccts (.redeem 9)).toOption = some [90, 69] ∧
    PoolDemo.isOk (.redeem 10) PoolDemo.w = true ∧
    (bal (PoolDemo.run (.redeem 10) PoolDemo.w).toks 30, bal (PoolDemo.run (.redeem 10) PoolDemo.w).toks 31) =
      (5090, 5069) ∧
    (answer PoolDemo.E .simple PoolDemo.st PoolDemo.w PoolDemo.askAccts (.create 33)).isOk = true := by
  refine ⟨⟨by decide, ?_⟩, by decide +kernel, by decide +kernel, by decide +kernel, by decide +kernel, by decide +kernel,
    by decide +kernel⟩
  intro x hx
  simp only [PoolDemo.st, List.mem_cons, List.not_mem_nil, or_false] at hx
  rcases hx with rfl | rfl <;> decide

end Serum.Props
