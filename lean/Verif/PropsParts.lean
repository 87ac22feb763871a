import Verif.PropsQuote

/-!
C103: an order to a pool cannot be improved by dividing it, nor can one by waiting for a lower price.
-/

namespace Serum.Pool
open Serum.Props

/-- Requests of the same kind for the same accounts, one after another. -/
def inParts (E : PoolEnv) (k : PoolKind) (st : PoolState) (accts : List AccMeta) (act : Nat → Action) :
    World → List Nat → Except Err World
  | w, [] => .ok w
  | w, n :: ns => do
    let w ← execute E k st w accts (act n)
    inParts E k st accts act w ns

/-- The accounts that take fees. -/
def feeAccts (st : PoolState) (A : Accts) : List Nat := [st.lqdVault, st.initVault, A.referrer.key]

/-- A customer: none of the accounts named for them takes fees, nor are they the pool's vaults, and the pool tokens are kept in
an account of their own. -/
structure Customer (st : PoolState) (A : Accts) : Prop where
  vaults : ∀ x ∈ st.assets, x.vault ∉ feeAccts st A ∧ x.vault ≠ A.userPool.key ∧ x.vault ∉ A.userAssets.map (·.key)
  assets : ∀ a ∈ A.userAssets, a.key ∉ feeAccts st A ∧ a.key ≠ A.userPool.key
  pool : A.userPool.key ∉ feeAccts st A

/-- The accounts are read off the list alone. -/
theorem Parsed.same {E : PoolEnv} {st : PoolState} {w w' : World} {accts : List AccMeta} {A B : Accts}
    (h : Parsed E st w accts A) (g : Parsed E st w' accts B) : A = B := by
  obtain ⟨p, r, e⟩ := h.listed
  obtain ⟨q, s, e'⟩ := g.listed
  rw [e] at e'
  have l1 : A.vaults.length = B.vaults.length := by
    have a := congrArg List.length h.vaults
    have b := congrArg List.length g.vaults
    simp only [List.length_map] at a b
    omega
  have l2 : A.userAssets.length = B.userAssets.length := by rw [h.assets, g.assets]
  have l3 : A.params.length = B.params.length := by
    have a := congrArg List.length h.params
    have b := congrArg List.length g.params
    simp only [List.length_map] at a b
    omega
  simp only [List.append_assoc, List.cons_append, List.cons.injEq, List.nil_append] at e'
  obtain ⟨-, e1, e'⟩ := e'
  obtain ⟨e2, e'⟩ := List.append_inj e' l1
  simp only [List.cons.injEq] at e'
  obtain ⟨e3, e4, e'⟩ := e'
  obtain ⟨e5, e'⟩ := List.append_inj e' l2
  simp only [List.cons.injEq] at e'
  obtain ⟨e6, e7, e8, e9, e10, e'⟩ := e'
  obtain ⟨e11, -⟩ := List.append_inj e' l3
  cases A
  cases B
  simp_all

theorem due_other {a : Nat} {ks qs : List Nat} (h : a ∉ ks) : due a (ks.zip qs) = 0 :=
  due_zero fun _ hp e => absurd (e ▸ (List.of_mem_zip hp).1) h

theorem due_sum (a : Nat) : ∀ (ks q r : List Nat), q.length = r.length →
    due a (ks.zip (List.zipWith (· + ·) q r)) = due a (ks.zip q) + due a (ks.zip r)
  | [], _, _, _ => rfl
  | _ :: _, [], [], _ => rfl
  | k :: ks, x :: q, y :: r, h => by
    simp only [List.zipWith_cons_cons, List.zip_cons_cons, due_cons]
    have := due_sum a ks q r (by simpa using h)
    split <;> omega

theorem due_mono (a : Nat) : ∀ (ks q r : List Nat), q.length = r.length → (∀ p ∈ q.zip r, p.1 ≤ p.2) →
    due a (ks.zip q) ≤ due a (ks.zip r)
  | [], _, _, _, _ => Nat.le_refl _
  | _ :: _, [], [], _, _ => Nat.le_refl _
  | k :: ks, x :: q, y :: r, h, hle => by
    simp only [List.zip_cons_cons, due_cons]
    have := due_mono a ks q r (by simpa using h) fun p hp => hle p (by simp [hp])
    have := hle (x, y) (by simp)
    split <;> omega

/-- The fee of a customer. -/
theorem Customer.fee {st : PoolState} {A : Accts} {n : Nat} {f : Fees} (hc : Customer st A) (h : Charged st A n f) :
    IsCeil (n * st.feeRate) 1000000 f.sum := by
  obtain ⟨g, hs, e1, e2, e3⟩ := h.fee
  have := hc.pool
  simp only [feeAccts, List.mem_cons, List.not_mem_nil, or_false, not_or] at this
  unfold Fees.sum
  rw [e1, e2, e3, if_neg this.1, if_neg (by simp [this.1, this.2.1]), if_neg (by simp [this.1, this.2.2])]
  exact hs.total

theorem due_fees {st : PoolState} {A : Accts} {f : Fees} {a : Nat} (h : a ∉ feeAccts st A) : due a (feeList st A f) = 0 := by
  refine due_zero fun p hp e => absurd ?_ h
  simp only [feeList, List.mem_cons, List.not_mem_nil, or_false] at hp
  rcases hp with rfl | rfl | rfl <;> simp [feeAccts, ← e]

theorem due_one {a b n : Nat} (h : b ≠ a) : due a [(b, n)] = 0 := by simp [due_cons, due_nil, h]

theorem due_self (a n : Nat) : due a [(a, n)] = n := by simp [due_cons, due_nil]

/-- What a customer's creations come to. -/
structure Bought (st : PoolState) (A : Accts) (n : Nat) (qs : List Nat) (fee : Nat) (w w' : World) : Prop where
  length : qs.length = st.assets.length
  vaults : ∀ x ∈ st.assets, bal w'.toks x.vault = bal w.toks x.vault + due x.vault (vaultSide st qs)
  assets : ∀ a ∈ A.userAssets, bal w'.toks a.key + due a.key (userSide A qs) = bal w.toks a.key
  pool : bal w'.toks A.userPool.key + fee = bal w.toks A.userPool.key + n
  supply : w'.supply = w.supply + n
  fee : n * st.feeRate ≤ fee * 1000000

/-- What a customer's redemptions come to. -/
structure Sold (st : PoolState) (A : Accts) (n : Nat) (qs : List Nat) (fee : Nat) (w w' : World) : Prop where
  length : qs.length = st.assets.length
  vaults : ∀ x ∈ st.assets, bal w'.toks x.vault + due x.vault (vaultSide st qs) = bal w.toks x.vault
  assets : ∀ a ∈ A.userAssets, bal w'.toks a.key = bal w.toks a.key + due a.key (userSide A qs)
  pool : bal w'.toks A.userPool.key + n = bal w.toks A.userPool.key
  supply : w'.supply + n = w.supply + fee
  fee : n * st.feeRate ≤ fee * 1000000

theorem Creates.bought {k : PoolKind} {st : PoolState} {w w' : World} {A : Accts} {n : Nat} {qs : List Nat} {f : Fees}
    (hc : Customer st A) (h : Creates k st w A n qs f w') : Bought st A n qs f.sum w w' := by
  refine ⟨h.basket, fun x hx => ?_, fun a ha => ?_, ?_, h.supply, (hc.fee h.fees).1⟩
  · obtain ⟨c1, c2, c3⟩ := hc.vaults x hx
    have := h.bal x.vault
    rw [due_fees c1, due_one (Ne.symm c2), show due x.vault (userSide A qs) = 0 from due_other c3] at this
    omega
  · obtain ⟨c1, c2⟩ := hc.assets a ha
    have := h.bal a.key
    rw [due_fees c1, due_one (Ne.symm c2), show due a.key (vaultSide st qs) = 0 from due_other fun hm => ?_] at this
    · omega
    · obtain ⟨x, hx, e⟩ := List.mem_map.1 hm
      exact (hc.vaults x hx).2.2 (e ▸ List.mem_map.2 ⟨a, ha, rfl⟩)
  · have := h.bal A.userPool.key
    rw [due_fees hc.pool, due_self, show due A.userPool.key (vaultSide st qs) = 0 from due_other fun hm => ?_,
      show due A.userPool.key (userSide A qs) = 0 from due_other fun hm => ?_] at this
    · have := h.atMost
      omega
    · obtain ⟨a, ha, e⟩ := List.mem_map.1 hm
      exact (hc.assets a ha).2 e
    · obtain ⟨x, hx, e⟩ := List.mem_map.1 hm
      exact (hc.vaults x hx).2.1 e

theorem Redeems.sold {k : PoolKind} {st : PoolState} {w w' : World} {A : Accts} {n : Nat} {qs : List Nat} {f : Fees}
    (hc : Customer st A) (h : Redeems k st w A n qs f w') : Sold st A n qs f.sum w w' := by
  refine ⟨h.basket, fun x hx => ?_, fun a ha => ?_, ?_, ?_, (hc.fee h.fees).1⟩
  · obtain ⟨c1, c2, c3⟩ := hc.vaults x hx
    have := h.bal x.vault
    rw [due_fees c1, due_one (Ne.symm c2), show due x.vault (userSide A qs) = 0 from due_other c3] at this
    omega
  · obtain ⟨c1, c2⟩ := hc.assets a ha
    have := h.bal a.key
    rw [due_fees c1, due_one (Ne.symm c2), show due a.key (vaultSide st qs) = 0 from due_other fun hm => ?_] at this
    · omega
    · obtain ⟨x, hx, e⟩ := List.mem_map.1 hm
      exact (hc.vaults x hx).2.2 (e ▸ List.mem_map.2 ⟨a, ha, rfl⟩)
  · have := h.bal A.userPool.key
    rw [due_fees hc.pool, due_self, show due A.userPool.key (vaultSide st qs) = 0 from due_other fun hm => ?_,
      show due A.userPool.key (userSide A qs) = 0 from due_other fun hm => ?_] at this
    · omega
    · obtain ⟨a, ha, e⟩ := List.mem_map.1 hm
      exact (hc.assets a ha).2 e
    · obtain ⟨x, hx, e⟩ := List.mem_map.1 hm
      exact (hc.vaults x hx).2.1 e
  · have := h.supply
    have := h.atMost
    omega

theorem due_blank (a : Nat) : ∀ (ks : List Nat) (m : Nat), due a (ks.zip (List.replicate m 0)) = 0
  | [], _ => rfl
  | _ :: _, 0 => rfl
  | k :: ks, m + 1 => by
    rw [List.replicate_succ, List.zip_cons_cons, due_cons, due_blank a ks m]
    split <;> rfl

theorem bought_parts {E : PoolEnv} {k : PoolKind} {st : PoolState} {accts : List AccMeta} {A : Accts} (hc : Customer st A)
    {w0 : World} (hp : Parsed E st w0 accts A) :
    ∀ {ns : List Nat} {w w' : World}, ns.sum < W64 → inParts E k st accts .create w ns = .ok w' →
      ∃ qs fee, Bought st A ns.sum qs fee w w'
  | [], w, w', _, h => by
    cases Except.ok.inj h
    exact ⟨List.replicate st.assets.length 0, 0, by simp, fun x _ => by rw [vaultSide, due_blank]; rfl,
      fun a _ => by rw [userSide, due_blank]; rfl, by simp, by simp, by simp⟩
  | n :: ns, w, w', hn, h => by
    rw [List.sum_cons] at hn
    obtain ⟨w1, h1, h2⟩ := bind_ok h
    obtain ⟨B, q, f, hb, c⟩ := pool_create (by omega) h1
    cases hp.same hb
    have c := c.bought hc
    obtain ⟨r, g, d⟩ := bought_parts hc hp (by omega) h2
    have hl : q.length = r.length := by rw [c.length, d.length]
    refine ⟨List.zipWith (· + ·) q r, f.sum + g, by simp [hl, d.length], fun x hx => ?_, fun a ha => ?_, ?_, ?_, ?_⟩
    · rw [vaultSide, due_sum _ _ _ _ hl]
      have e1 := c.vaults x hx
      have e2 := d.vaults x hx
      unfold vaultSide at e1 e2
      omega
    · rw [userSide, due_sum _ _ _ _ hl]
      have e1 := c.assets a ha
      have e2 := d.assets a ha
      unfold userSide at e1 e2
      omega
    · have e1 := c.pool
      have e2 := d.pool
      rw [List.sum_cons]
      omega
    · rw [d.supply, c.supply, List.sum_cons]
      omega
    · rw [List.sum_cons, Nat.add_mul, Nat.add_mul]
      exact Nat.add_le_add c.fee d.fee

theorem sold_parts {E : PoolEnv} {k : PoolKind} {st : PoolState} {accts : List AccMeta} {A : Accts} (hc : Customer st A)
    {w0 : World} (hp : Parsed E st w0 accts A) :
    ∀ {ns : List Nat} {w w' : World}, ns.sum < W64 → inParts E k st accts .redeem w ns = .ok w' →
      ∃ qs fee, Sold st A ns.sum qs fee w w'
  | [], w, w', _, h => by
    cases Except.ok.inj h
    exact ⟨List.replicate st.assets.length 0, 0, by simp, fun x _ => by rw [vaultSide, due_blank]; rfl,
      fun a _ => by rw [userSide, due_blank]; rfl, by simp, by simp, by simp⟩
  | n :: ns, w, w', hn, h => by
    rw [List.sum_cons] at hn
    obtain ⟨w1, h1, h2⟩ := bind_ok h
    obtain ⟨B, q, f, hb, c⟩ := pool_redeem (by omega) h1
    cases hp.same hb
    have c := c.sold hc
    obtain ⟨r, g, d⟩ := sold_parts hc hp (by omega) h2
    have hl : q.length = r.length := by rw [c.length, d.length]
    refine ⟨List.zipWith (· + ·) q r, f.sum + g, by simp [hl, d.length], fun x hx => ?_, fun a ha => ?_, ?_, ?_, ?_⟩
    · rw [vaultSide, due_sum _ _ _ _ hl]
      have e1 := c.vaults x hx
      have e2 := d.vaults x hx
      unfold vaultSide at e1 e2
      omega
    · rw [userSide, due_sum _ _ _ _ hl]
      have e1 := c.assets a ha
      have e2 := d.assets a ha
      unfold userSide at e1 e2
      omega
    · have e1 := c.pool
      have e2 := d.pool
      rw [List.sum_cons]
      omega
    · have e1 := c.supply
      have e2 := d.supply
      rw [List.sum_cons]
      omega
    · rw [List.sum_cons, Nat.add_mul, Nat.add_mul]
      exact Nat.add_le_add c.fee d.fee

theorem inParts_moves {E : PoolEnv} {k : PoolKind} {st : PoolState} {accts : List AccMeta} {act : Nat → Action}
    (ha : act = .create ∨ act = .redeem) (hk : ∀ a ∈ accts, a.key = st.signer → a.signer = false) :
    ∀ {ns : List Nat} {w w' : World}, ns.sum < W64 → inParts E k st accts act w ns = .ok w' → Moves E k st w w'
  | [], w, w', _, h => by
    cases Except.ok.inj h
    exact .refl _
  | n :: ns, w, w', hn, h => by
    rw [List.sum_cons] at hn
    obtain ⟨w1, h1, h2⟩ := bind_ok h
    refine (inParts_moves ha hk (by omega) h2).head (.exec hk (fun m hm => ?_) h1)
    rcases ha with rfl | rfl <;> rcases hm with hm | hm <;> cases hm <;> omega

theorem due_vault {st : PoolState} (hd : (st.assets.map (·.vault)).Nodup) {qs : List Nat}
    (hl : qs.length = st.assets.length) {p : Nat × Nat} (h : p ∈ vaultSide st qs) : due p.1 (vaultSide st qs) = p.2 := by
  refine due_nodup ?_ h
  unfold vaultSide
  rw [zip_fst (by simp [hl])]
  exact hd

/-- Comparing baskets vault by vault. -/
theorem basket_le {st : PoolState} (hd : (st.assets.map (·.vault)).Nodup) {q r : List Nat}
    (hq : q.length = st.assets.length) (hr : r.length = st.assets.length)
    (h : ∀ x ∈ st.assets, due x.vault (vaultSide st q) ≤ due x.vault (vaultSide st r)) : ∀ p ∈ q.zip r, p.1 ≤ p.2 := by
  intro p hp
  obtain ⟨i, hi, e⟩ := List.getElem_of_mem hp
  simp only [List.length_zip] at hi
  have hx : st.assets[i]'(by omega) ∈ st.assets := List.getElem_mem _
  have m1 : ((st.assets[i]'(by omega)).vault, q[i]'(by omega)) ∈ vaultSide st q :=
    List.mem_iff_getElem.2 ⟨i, by simp [vaultSide]; omega, by simp [vaultSide]⟩
  have m2 : ((st.assets[i]'(by omega)).vault, r[i]'(by omega)) ∈ vaultSide st r :=
    List.mem_iff_getElem.2 ⟨i, by simp [vaultSide]; omega, by simp [vaultSide]⟩
  have := h _ hx
  have e1 := due_vault hd hq m1
  have e2 := due_vault hd hr m2
  simp only at e1 e2
  rw [e1, e2] at this
  rw [← e]
  simpa using this

end Serum.Pool

namespace Serum.Props
open Serum.Pool

/-- C103. Dividing a creation never helps: what the parts put into every vault is at least what one request for the same
quantity puts in, so no asset account of the customer ends with more; nor does the account of pool tokens. -/
theorem divided_creation {E : PoolEnv} {k : PoolKind} {st : PoolState} {w w1 w2 : World} {accts : List AccMeta} {A : Accts}
    {ns : List Nat} (hs : Sound st w) (hk : ∀ a ∈ accts, a.key = st.signer → a.signer = false)
    (hp : Parsed E st w accts A) (hc : Customer st A) (hn : ns.sum < W64)
    (hone : execute E k st w accts (.create ns.sum) = .ok w1) (hparts : inParts E k st accts .create w ns = .ok w2) :
    (∀ x ∈ st.assets, bal w1.toks x.vault ≤ bal w2.toks x.vault) ∧
    (∀ a ∈ A.userAssets, bal w2.toks a.key ≤ bal w1.toks a.key) ∧
    bal w2.toks A.userPool.key ≤ bal w1.toks A.userPool.key ∧ w2.supply = w1.supply := by
  obtain ⟨B, q, f, hb, one⟩ := pool_create hn hone
  cases hp.same hb
  have b := one.bought hc
  obtain ⟨r, g, d⟩ := bought_parts hc hp hn hparts
  have nd := (never_diluted hs (inParts_moves (.inl rfl) hk hn hparts)).2.1
  have hle : ∀ x ∈ st.assets, due x.vault (vaultSide st q) ≤ due x.vault (vaultSide st r) := by
    intro x hx
    obtain ⟨y, hy⟩ := vault_quantity one.basket hx
    have e := due_vault hs.distinct one.basket hy
    simp only at e
    rw [e]
    have pr := (one.price _ hy).2
    have h1 := nd x hx
    rw [d.vaults x hx, d.supply, Nat.mul_add, Nat.add_mul] at h1
    simp only at pr
    have : y * w.supply < (due x.vault (vaultSide st r) + 1) * w.supply := by
      rw [Nat.add_mul]
      omega
    exact Nat.lt_succ_iff.1 (Nat.lt_of_mul_lt_mul_right this)
  have hq := basket_le hs.distinct one.basket d.length hle
  refine ⟨fun x hx => ?_, fun a ha => ?_, ?_, by rw [d.supply, b.supply]⟩
  · rw [b.vaults x hx, d.vaults x hx]
    have := hle x hx
    omega
  · have e1 := b.assets a ha
    have e2 := d.assets a ha
    have e3 := due_mono a.key (A.userAssets.map (·.key)) q r (by rw [one.basket, d.length]) hq
    unfold userSide at e1 e2
    omega
  · have e1 := b.pool
    have e2 := d.pool
    have c1 := (hc.fee one.fees).2
    have c2 := d.fee
    omega

/-- C103. Dividing a redemption never helps: what the parts take out of every vault is at most what one request for the same
quantity takes out, so no asset account of the customer ends with more; as many pool tokens are given for it. -/
theorem divided_redemption {E : PoolEnv} {k : PoolKind} {st : PoolState} {w w1 w2 : World} {accts : List AccMeta} {A : Accts}
    {ns : List Nat} (hs : Sound st w) (hk : ∀ a ∈ accts, a.key = st.signer → a.signer = false)
    (hp : Parsed E st w accts A) (hc : Customer st A) (hn : ns.sum < W64)
    (hone : execute E k st w accts (.redeem ns.sum) = .ok w1) (hparts : inParts E k st accts .redeem w ns = .ok w2) :
    (∀ x ∈ st.assets, bal w1.toks x.vault ≤ bal w2.toks x.vault) ∧
    (∀ a ∈ A.userAssets, bal w2.toks a.key ≤ bal w1.toks a.key) ∧
    bal w2.toks A.userPool.key = bal w1.toks A.userPool.key ∧ w1.supply ≤ w2.supply := by
  obtain ⟨B, q, f, hb, one⟩ := pool_redeem hn hone
  cases hp.same hb
  have b := one.sold hc
  obtain ⟨r, g, d⟩ := sold_parts hc hp hn hparts
  have nd := (never_diluted hs (inParts_moves (.inr rfl) hk hn hparts)).2.1
  have hfee : f.sum ≤ g := by
    have c1 := (hc.fee one.fees).2
    have c2 := d.fee
    omega
  have hle : ∀ x ∈ st.assets, due x.vault (vaultSide st r) ≤ due x.vault (vaultSide st q) := by
    intro x hx
    obtain ⟨y, hy⟩ := vault_quantity one.basket hx
    have e := due_vault hs.distinct one.basket hy
    simp only at e
    rw [e]
    have pr := (one.price _ hy).2
    simp only at pr
    have h1 := nd x hx
    have h2 : bal w.toks x.vault * w.supply ≤ bal w.toks x.vault * w2.supply + bal w.toks x.vault * (ns.sum - f.sum) := by
      rw [← Nat.mul_add]
      refine Nat.mul_le_mul_left _ ?_
      have := d.supply
      have := one.atMost
      omega
    have h3 : bal w.toks x.vault * w.supply =
        bal w2.toks x.vault * w.supply + due x.vault (vaultSide st r) * w.supply := by
      rw [← Nat.add_mul, d.vaults x hx]
    have : due x.vault (vaultSide st r) * w.supply < (y + 1) * w.supply := by
      rw [Nat.add_mul]
      omega
    exact Nat.lt_succ_iff.1 (Nat.lt_of_mul_lt_mul_right this)
  have hq := basket_le hs.distinct d.length one.basket hle
  refine ⟨fun x hx => ?_, fun a ha => ?_, ?_, ?_⟩
  · have e1 := b.vaults x hx
    have e2 := d.vaults x hx
    have := hle x hx
    omega
  · have e1 := b.assets a ha
    have e2 := d.assets a ha
    have e3 := due_mono a.key (A.userAssets.map (·.key)) r q (by rw [one.basket, d.length]) hq
    unfold userSide at e1 e2
    omega
  · have e1 := b.pool
    have e2 := d.pool
    omega
  · have e1 := b.supply
    have e2 := d.supply
    omega

/-- C103. Quotes never fall: whatever happens between two quotes for the same quantity, the later one is no lower in any
asset. So nobody gets in cheaper by waiting, and nobody gets out with less for it. -/
theorem quotes_never_fall {E : PoolEnv} {k : PoolKind} {st : PoolState} {w w' : World} (hs : Sound st w) (hm : Moves E k st w w')
    (hf : PoolFits st w) (hf' : PoolFits st w') {accts accts' : List AccMeta} {act : Action} {n : Nat} {up : Bool}
    (ha : act.asks = some (n, up)) (hn : n < W64) {now later : List Nat}
    (h : getBasket E k st w accts act = .ok now) (h' : getBasket E k st w' accts' act = .ok later) :
    now.length = later.length ∧ ∀ p ∈ now.zip later, p.1 ≤ p.2 := by
  have q := ((quote_iff hf ha hn).1 h).2
  have q' := ((quote_iff hf' ha hn).1 h').2
  have nd := (never_diluted hs hm).2.1
  refine ⟨by rw [q.length, q'.length], basket_le hs.distinct q.length q'.length fun x hx => ?_⟩
  obtain ⟨y, hy⟩ := vault_quantity q.length hx
  obtain ⟨z, hz⟩ := vault_quantity q'.length hx
  have e1 := due_vault hs.distinct q.length hy
  have e2 := due_vault hs.distinct q'.length hz
  simp only at e1 e2
  rw [e1, e2]
  have p1 := (q.price _ hy).1
  have p2 := (q'.price _ hz).1
  have hv := Nat.mul_le_mul_right n (nd x hx)
  have r1 : bal w.toks x.vault * w'.supply * n = bal w.toks x.vault * n * w'.supply := Nat.mul_right_comm ..
  have r2 : bal w'.toks x.vault * w.supply * n = bal w'.toks x.vault * n * w.supply := Nat.mul_right_comm ..
  rw [r1, r2] at hv
  cases up with
  | true =>
    simp only [if_true] at p1 p2
    have s1 := Nat.mul_lt_mul_of_pos_right p1.2 q'.alive
    have s2 := Nat.mul_le_mul_right w.supply p2.1
    rw [Nat.add_mul] at s1
    have : y * (w.supply * w'.supply) < (z + 1) * (w.supply * w'.supply) := by
      rw [Nat.add_mul, Nat.one_mul, ← Nat.mul_assoc]
      have : z * (w.supply * w'.supply) = z * w'.supply * w.supply := by rw [Nat.mul_comm w.supply, Nat.mul_assoc]
      omega
    exact Nat.lt_succ_iff.1 (Nat.lt_of_mul_lt_mul_right this)
  | false =>
    simp only [Bool.false_eq_true, if_false] at p1 p2
    have s1 := Nat.mul_le_mul_right w'.supply p1.1
    have s2 := Nat.mul_lt_mul_of_pos_right p2.2 q.alive
    rw [Nat.add_mul] at s2
    have : y * (w.supply * w'.supply) < (z + 1) * (w.supply * w'.supply) := by
      rw [Nat.add_mul, Nat.one_mul, ← Nat.mul_assoc]
      have : z * (w.supply * w'.supply) = z * w'.supply * w.supply := by rw [Nat.mul_comm w.supply, Nat.mul_assoc]
      have : w'.supply * w.supply = w.supply * w'.supply := Nat.mul_comm ..
      omega
    exact Nat.lt_succ_iff.1 (Nat.lt_of_mul_lt_mul_right this)

namespace PoolDemo

def A : Accts :=
  { mint := ⟨1, false⟩, vaults := [⟨20, false⟩, ⟨21, false⟩], authority := ⟨9, false⟩, userPool := ⟨32, false⟩,
    userAssets := [⟨30, false⟩, ⟨31, false⟩], userAuth := ⟨50, true⟩, lqd := ⟨40, false⟩, initializer := ⟨41, false⟩,
    referrer := ⟨42, false⟩, splToken := ⟨7, false⟩, params := [] }

def okParts (act : Nat → Action) (ns : List Nat) (w : World) : Bool :=
  match inParts E .simple st accts act w ns with | .ok _ => true | .error _ => false

def parts (act : Nat → Action) (ns : List Nat) (w : World) : World :=
  match inParts E .simple st accts act w ns with | .ok w => w | .error _ => w

/-- Thirty-three tokens at once, or in three parts: the parts cost one unit more of the second asset and two more tokens of
fees. -/
example : execContext E st w accts = .ok A ∧ Customer st A ∧
    isOk (.create 33) w = true ∧ okParts .create [10, 10, 13] w = true ∧
    isOk (.redeem 33) w1 = true ∧ okParts .redeem [10, 10, 13] w1 = true ∧
    (bal (run (.create 33) w).toks 31, bal (parts .create [10, 10, 13] w).toks 31) = (4743, 4742) ∧
    (bal (run (.create 33) w).toks 32, bal (parts .create [10, 10, 13] w).toks 32) = (42, 40) ∧
    (bal (run (.redeem 33) w1).toks 31, bal (parts .redeem [10, 10, 13] w1).toks 31) = (4991, 4975) := by
  refine ⟨rfl, ⟨?_, ?_, by decide⟩, by decide +kernel, by decide +kernel, by decide +kernel, by decide +kernel,
    by decide +kernel, by decide +kernel, by decide +kernel⟩
  · intro x hx
    simp only [st, List.mem_cons, List.not_mem_nil, or_false] at hx
    rcases hx with rfl | rfl <;> decide
  · intro a ha
    simp only [A, List.mem_cons, List.not_mem_nil, or_false] at ha
    rcases ha with rfl | rfl <;> decide

/-- Why the account of pool tokens must not be one that takes fees: for the initialiser's own account, whose share is waived, a
fee of seven tokens becomes two of three. -/
example : (feesFor 2500 5600, feesFor 2500 2800) = (.ok ⟨5, 7, 2⟩, .ok ⟨2, 4, 1⟩) := rfl

end PoolDemo

end Serum.Props
