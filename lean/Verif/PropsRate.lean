import Verif.Runs
import Verif.PropsFees

/-!
The rate an order is charged, and the tokens that entitle its sender to it. Used by C64, C78 and C81.
-/

namespace Serum.Props

/-- Specification: the fee schedule, in 1/100000 of the traded amount, for who holds `srm` base units of SRM (6 decimals)
and `msrm` MSRM. -/
def schedule (stable : Bool) (srm msrm : Nat) : Nat :=
  if stable then 10
  else if 0 < msrm then 30
  else if 10 ^ 12 ≤ srm then 32
  else if 10 ^ 11 ≤ srm then 34
  else if 10 ^ 10 ≤ srm then 36
  else if 10 ^ 9 ≤ srm then 38
  else if 10 ^ 8 ≤ srm then 39
  else 40

theorem advertised_ofBalances (st : Bool) (srm msrm : Nat) :
    advertised (FeeTier.ofBalances st srm msrm) = schedule st srm msrm := by
  unfold FeeTier.ofBalances schedule
  repeat' split
  all_goals first | rfl | omega

/-- `signer`, passing the accounts `accts`, is due `rate` on the market of `c`: the base rate, or the rate for the tokens
in one of the accounts passed, provided that account is the signer's own and not frozen. -/
inductive Due (P : Params) (c : Core) (signer : Nat) (accts : List AccMeta) : Nat → Prop where
  | base : Due P c signer accts (schedule (P.isStable c.mkt.ownAddress) 0 0)
  | srm (a : AccMeta) (t : Tok) (mem : a ∈ accts) (held : c.toks a.key = some t) (own : t.owner = signer)
      (thawed : t.frozen = false) (mint : t.mint = P.srmMint) :
      Due P c signer accts (schedule (P.isStable c.mkt.ownAddress) t.amount 0)
  | msrm (a : AccMeta) (t : Tok) (mem : a ∈ accts) (held : c.toks a.key = some t) (own : t.owner = signer)
      (thawed : t.frozen = false) (mint : t.mint = P.msrmMint) :
      Due P c signer accts (schedule (P.isStable c.mkt.ownAddress) 0 t.amount)

theorem Due.subset {P : Params} {c : Core} {signer : Nat} {l l' : List AccMeta} {r : Nat} (h : Due P c signer l r)
    (hl : l ⊆ l') : Due P c signer l' r := by
  cases h with
  | base => exact .base
  | srm a t mem held own thawed mint => exact .srm a t (hl mem) held own thawed mint
  | msrm a t mem held own thawed mint => exact .msrm a t (hl mem) held own thawed mint

/-- The exact rate: `extra` are the accounts passed after the twelve every order and take passes. -/
structure Rated (P : Params) (c : Core) (signer : Nat) (extra : List AccMeta) (rate : Nat) : Prop where
  one : extra.length ≤ 1
  without : extra = [] → rate = schedule (P.isStable c.mkt.ownAddress) 0 0
  shown : ∀ a, extra = [a] → ∃ t, c.toks a.key = some t ∧ t.owner = signer ∧ t.frozen = false ∧
    rate = if t.mint = P.srmMint then schedule (P.isStable c.mkt.ownAddress) t.amount 0
      else if t.mint = P.msrmMint then schedule (P.isStable c.mkt.ownAddress) 0 t.amount
      else schedule (P.isStable c.mkt.ownAddress) 0 0

theorem rated {P : Params} {c : Core} {signer : Nat} {extra : List AccMeta} {tier : FeeTier}
    (h : ∃ disc, discountAcct c extra = .ok disc ∧ loadFeeTier P c signer disc = .ok tier) :
    Rated P c signer extra (advertised tier) := by
  obtain ⟨disc, h1, h2⟩ := h
  match extra, h1 with
  | [], h1 =>
    cases h1
    cases h2
    exact ⟨by simp, fun _ => advertised_ofBalances _ _ _, fun a ha => by cases ha⟩
  | [a], h1 =>
    unfold discountAcct at h1
    obtain ⟨t, h3, h1⟩ := bind_ok h1
    cases h1
    refine ⟨by simp, (fun ha => by cases ha), fun b hb => ?_⟩
    cases hb
    unfold tokAcct at h3
    split at h3
    · rename_i t' ht
      split at h3
      · cases h3
      · rename_i hf
        cases h3
        unfold loadFeeTier at h2
        simp only at h2
        split at h2
        · cases h2
        · rename_i ho
          refine ⟨t, ht, by simpa using ho, by simpa using hf, ?_⟩
          split at h2
          · cases h2; rename_i hm
            rw [if_pos hm]; exact advertised_ofBalances _ _ _
          · rename_i hm
            rw [if_neg hm]
            split at h2
            · cases h2; rename_i hm'
              rw [if_pos hm']; exact advertised_ofBalances _ _ _
            · cases h2; rename_i hm'
              rw [if_neg hm']; exact advertised_ofBalances _ _ _
    · cases h3
  | _ :: _ :: _, h1 => cases h1

theorem Rated.due {P : Params} {c : Core} {signer : Nat} {extra : List AccMeta} {rate : Nat}
    (h : Rated P c signer extra rate) : Due P c signer extra rate := by
  match extra, h with
  | [], h => rw [h.without rfl]; exact .base
  | [a], h =>
    obtain ⟨t, h1, h2, h3, h4⟩ := h.shown a rfl
    split at h4
    · rw [h4]; exact .srm a t (by simp) h1 h2 h3 (by assumption)
    · split at h4
      · rw [h4]; exact .msrm a t (by simp) h1 h2 h3 (by assumption)
      · rw [h4]; exact .base
  | _ :: _ :: _, h => have := h.one; simp at this

theorem parse_order_extra {accts : List AccMeta} {a : NewOrderAccts} (h : parseNewOrder accts = .ok a) :
    a.discount = accts.drop 12 ∧ accts[7]? = some a.owner := by
  unfold parseNewOrder at h
  split at h
  · split at h
    · cases h; exact ⟨rfl, rfl⟩
    · cases h
  · cases h

theorem parse_take_extra {accts : List AccMeta} {a : SendTakeAccts} (h : parseSendTake accts = .ok a) :
    a.discount = accts.drop 12 ∧ accts[7]? = some a.signer := by
  unfold parseSendTake at h
  split at h
  · split at h
    · cases h; exact ⟨rfl, rfl⟩
    · cases h
  · cases h

theorem order_due {P : Params} {env : Env} {c : Core} {accts : List AccMeta} {a : NewOrderAccts} {sd : Side}
    {tier : FeeTier} {o : OpenOrders} (h : OrderArgs P env c accts a sd tier o) :
    Due P c a.owner.key accts (advertised tier) := by
  have := (rated h.tier).due
  rw [(parse_order_extra h.parse).1] at this
  exact this.subset (List.drop_subset _ _)

theorem take_due {P : Params} {c : Core} {accts : List AccMeta} {a : SendTakeAccts} {tier : FeeTier}
    (h : TakeArgs P c accts a tier) : Due P c a.signer.key accts (advertised tier) := by
  have := (rated h.tier).due
  rw [(parse_take_extra h.parse).1] at this
  exact this.subset (List.drop_subset _ _)

/-- Less than the base rate is due only to holders of at least 100 SRM or one MSRM, and on stable markets. -/
theorem Due.holder {P : Params} {c : Core} {signer : Nat} {accts : List AccMeta} {r : Nat} (h : Due P c signer accts r)
    (hr : r ≠ 40) : P.isStable c.mkt.ownAddress = true ∨
      ∃ a ∈ accts, ∃ t, c.toks a.key = some t ∧ t.owner = signer ∧
        ((t.mint = P.srmMint ∧ 10 ^ 8 ≤ t.amount) ∨ (t.mint = P.msrmMint ∧ 1 ≤ t.amount)) := by
  cases hs : P.isStable c.mkt.ownAddress with
  | true => exact .inl rfl
  | false =>
    refine .inr ?_
    cases h with
    | base => rw [hs] at hr; exact absurd rfl hr
    | srm a t mem held own thawed mint =>
      refine ⟨a, mem, t, held, own, .inl ⟨mint, ?_⟩⟩
      refine Nat.le_of_not_lt fun hlt => hr ?_
      rw [hs]; unfold schedule
      simp only [Bool.false_eq_true, if_false]
      repeat' rw [if_neg (by omega)]
    | msrm a t mem held own thawed mint =>
      refine ⟨a, mem, t, held, own, .inr ⟨mint, ?_⟩⟩
      refine Nat.pos_of_ne_zero fun h0 => hr ?_
      rw [hs, h0]; rfl

end Serum.Props
