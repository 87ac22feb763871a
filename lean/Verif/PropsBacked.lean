import Verif.PropsCommon
import Verif.PropsQuote

/-!
C126: a pool can pay all its holders at once. What it quotes to them for everything they have adds up to no more than its
vaults, and to all of the vaults but for less than a unit per holder.
-/

namespace Serum.Props

open Pool

/-- What is quoted of the asset with number `i`. -/
def quoteOf (quotes : Nat → List Nat) (i a : Nat) : Nat := (quotes a).getD i 0

theorem floors_add {f g : Nat → Nat} {v s : Nat} : ∀ {L : List Nat}, (∀ a ∈ L, IsFloor (v * f a) s (g a)) →
    total g L * s ≤ v * total f L ∧ v * total f L ≤ (total g L + L.length) * s ∧ (L ≠ [] → v * total f L < (total g L + L.length) * s)
  | [], _ => by simp [total]
  | a :: L, h => by
    have h1 := h a (by simp)
    obtain ⟨i1, i2, _⟩ := floors_add (L := L) fun b hb => h b (by simp [hb])
    have e : ∀ k : Nat → Nat, total k (a :: L) = k a + total k L := fun k => by simp [total]
    unfold IsFloor at h1
    rw [e, e, List.length_cons]
    have e1 : (g a + total g L) * s = g a * s + total g L * s := Nat.add_mul _ _ _
    have e2 : v * (f a + total f L) = v * f a + v * total f L := Nat.mul_add _ _ _
    have e3 : (g a + total g L + (L.length + 1)) * s = (g a + 1) * s + (total g L + L.length) * s := by
      rw [← Nat.add_mul]; congr 1; omega
    have e4 : (g a + 1) * s = g a * s + s := Nat.succ_mul _ _
    rw [e1, e2, e3]
    refine ⟨by omega, by omega, fun _ => by omega⟩

theorem SupplyHeld.some {c : PoolChain} {mint : Nat} (h : SupplyHeld c mint) {L : List Nat} (hL : L.Nodup) :
    total (holding c.toks mint) L ≤ c.supply mint := by
  obtain ⟨K, _, k2, _⟩ := id h
  obtain ⟨M, hM, hK⟩ := nodup_cover K L hL
  have := h.all hM fun a ha => hK a (k2 a ha)
  have e : total (holding c.toks mint) (L ++ M) = total (holding c.toks mint) L + total (holding c.toks mint) M := by simp [total]
  omega

/-- Everything one account has is at most the supply. -/
theorem SupplyHeld.one {c : PoolChain} {mint : Nat} (h : SupplyHeld c mint) (a : Nat) : holding c.toks mint a ≤ c.supply mint := by
  have := h.some (L := [a]) (by simp)
  simpa [total] using this

theorem quote_floor {E : PoolEnv} {k : PoolKind} {st : PoolState} {w : World} (hf : PoolFits st w) {accts : List AccMeta} {n : Nat}
    {qs : List Nat} (hn : n < W64) (hq : getBasket E k st w accts (.redeem n) = .ok qs) {i : Nat} (hi : i < st.assets.length) :
    0 < w.supply ∧ IsFloor (bal w.toks st.assets[i].vault * n) w.supply (qs.getD i 0) := by
  obtain ⟨_, hQ⟩ := (quote_iff hf (act := .redeem n) rfl hn).1 hq
  have hl := hQ.length
  have hi' : i < qs.length := by omega
  have := (hQ.price (st.assets[i].vault, qs[i]) (List.mem_iff_getElem.2 ⟨i, by simp [vaultSide]; omega, by simp [vaultSide]⟩)).1
  refine ⟨hQ.alive, ?_⟩
  rw [List.getD_eq_getElem?_getD, List.getElem?_eq_getElem hi', Option.getD_some]
  simpa using this

/-- C126: what a pool quotes to any of its holders, each for all they have, adds up to no more than there is of any asset. If
they are all the holders, less than a unit per holder is left over; and who holds everything is quoted everything. -/
theorem holders_backed {E : PoolEnv} {k : PoolKind} {c : PoolChain} {st : PoolState} (hs : SupplyHeld c st.mint)
    (hf : PoolFits st (c.world st.mint)) {L : List Nat} (hL : L.Nodup) {accts : Nat → List AccMeta} {quotes : Nat → List Nat}
    (hq : ∀ a ∈ L, getBasket E k st (c.world st.mint) (accts a) (.redeem (holding c.toks st.mint a)) = .ok (quotes a))
    {i : Nat} (hi : i < st.assets.length) :
    (L.map (quoteOf quotes i)).sum ≤ bal c.toks st.assets[i].vault ∧
    ((∀ a, holding c.toks st.mint a ≠ 0 → a ∈ L) → L ≠ [] →
      bal c.toks st.assets[i].vault < (L.map (quoteOf quotes i)).sum + L.length) ∧
    (∀ a ∈ L, holding c.toks st.mint a = c.supply st.mint → quoteOf quotes i a = bal c.toks st.assets[i].vault) := by
  have hsup : c.supply st.mint < W64 := hf.supply
  have fl : ∀ a ∈ L, 0 < c.supply st.mint ∧
      IsFloor (bal c.toks st.assets[i].vault * holding c.toks st.mint a) (c.supply st.mint) (quoteOf quotes i a) := fun a ha =>
    quote_floor hf (Nat.lt_of_le_of_lt (hs.one a) hsup) (hq a ha) hi
  obtain ⟨f1, _, f3⟩ := floors_add (L := L) fun a ha => (fl a ha).2
  have tot := hs.some hL
  cases hl : L with
  | nil => exact ⟨Nat.zero_le _, fun _ h => absurd rfl h, fun a ha => by cases ha⟩
  | cons b L' =>
    rw [← hl]
    have hpos : 0 < c.supply st.mint := (fl b (by rw [hl]; simp)).1
    refine ⟨?_, fun hc hne => ?_, fun a ha he => ?_⟩
    · refine Nat.le_of_mul_le_mul_right (Nat.le_trans f1 ?_) hpos
      exact Nat.mul_le_mul_left _ tot
    · have h3 := f3 hne
      rw [hs.all hL hc] at h3
      exact Nat.lt_of_mul_lt_mul_right h3
    · obtain ⟨_, h1, h2⟩ := fl a ha
      rw [he] at h1 h2
      have := Nat.le_of_mul_le_mul_right h1 hpos
      rw [← Nat.succ_mul] at h2
      have := Nat.lt_of_mul_lt_mul_right h2
      omega

/-- C126: so it stays, whatever anybody does. -/
theorem holders_backed_later {E : PoolEnv} {k : PoolKind} {c c' : PoolChain} {st : PoolState} (hs : SupplyHeld c st.mint)
    (h : PLater E k (KeepsHolders st.mint) c c') (hf : PoolFits st (c'.world st.mint)) {L : List Nat} (hL : L.Nodup)
    {accts : Nat → List AccMeta} {quotes : Nat → List Nat}
    (hq : ∀ a ∈ L, getBasket E k st (c'.world st.mint) (accts a) (.redeem (holding c'.toks st.mint a)) = .ok (quotes a))
    {i : Nat} (hi : i < st.assets.length) : (L.map (quoteOf quotes i)).sum ≤ bal c'.toks st.assets[i].vault :=
  (holders_backed (supply_held h hs) hf hL hq hi).1

namespace BackedDemo

open PoolsDemo

def st : PoolState := Record.view ⟨1, [⟨2, 20⟩, ⟨3, 21⟩], 1004, 0, [], [112], 40, 41, 2500, none, []⟩

def ask : List AccMeta := [⟨4, false⟩, ⟨1, false⟩, ⟨20, false⟩, ⟨21, false⟩, ⟨1004, false⟩, ⟨70, false⟩, ⟨5, false⟩]

def quotes (a : Nat) : List Nat := if a = 32 then [100, 77] else [900, 699]

theorem quoted : ∀ a ∈ [32, 41], getBasket E .simple st (c4.world st.mint) ask (.redeem (holding c4.toks st.mint a)) = .ok (quotes a) := by
  have : ∀ {x : Except Err (List Nat)} {q : List Nat}, x.toOption = some q → x = .ok q := by
    intro x q h
    cases x with
    | error _ => cases h
    | ok y => cases h; rfl
  intro a ha
  simp only [List.mem_cons, List.not_mem_nil, or_false] at ha
  rcases ha with rfl | rfl <;> exact this (by decide +kernel)

/-- The holders of ten and of ninety tokens: the first asset goes out even, of the second one of 777 is left. -/
example : SupplyHeld c4 st.mint ∧ PoolFits st (c4.world st.mint) ∧
    ([32, 41].map (quoteOf quotes 0)).sum = 1000 ∧ bal c4.toks 20 = 1000 ∧
    ([32, 41].map (quoteOf quotes 1)).sum = 776 ∧ bal c4.toks 21 = 777 ∧
    ([32, 41].map (quoteOf quotes 1)).sum ≤ bal c4.toks st.assets[1].vault := by
  have hf : PoolFits st (c4.world st.mint) := by
    refine ⟨by decide +kernel, fun x hx => ?_⟩
    have hx : x ∈ [(⟨2, 20⟩ : Asset), ⟨3, 21⟩] := hx
    simp only [List.mem_cons, List.not_mem_nil, or_false] at hx
    rcases hx with rfl | rfl <;> decide +kernel
  have held : SupplyHeld c4 st.mint := SupplyDemo.held4
  have len : 1 < st.assets.length := by decide
  have sum := (holders_backed (c := c4) (st := st) (L := [32, 41]) held hf (by decide) (accts := fun _ => ask) quoted (i := 1) len).1
  exact ⟨held, hf, by decide, by decide +kernel, by decide, by decide +kernel, sum⟩

end BackedDemo

end Serum.Props
