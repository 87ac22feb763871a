import Verif.PropsPool

/-!
C48, C49: what creations and redemptions of pool tokens do, and that they never dilute the holders.
-/

namespace Serum.Pool

/-- Token instructions including those on the mint of the pool token. -/
inductive WorldIx where
  | tok (ix : TokIx)
  | setMinter (new : Option Nat)

/-- The token program with supply and mint authority of the pool token `mint`. -/
def tokenExec (mint : Nat) (signs : Nat → Bool) (w : World) : WorldIx → Option World
  | .tok (.mint a n) =>
    match w.toks a with
    | none => none
    | some t =>
      if t.mint = mint then
        if w.minter.any signs && decide (w.supply + n < W64) then
          (tokExec signs w.toks (.mint a n)).map fun l => { w with toks := l, supply := w.supply + n }
        else none
      else (tokExec signs w.toks (.mint a n)).map fun l => { w with toks := l }
  | .tok (.burn a auth n) =>
    match w.toks a with
    | none => none
    | some t =>
      if t.mint = mint then
        if n ≤ w.supply then
          (tokExec signs w.toks (.burn a auth n)).map fun l => { w with toks := l, supply := w.supply - n }
        else none
      else (tokExec signs w.toks (.burn a auth n)).map fun l => { w with toks := l }
  | .tok ix => (tokExec signs w.toks ix).map fun l => { w with toks := l }
  | .setMinter new => if w.minter.any signs then some { w with minter := new } else none

/-- Something happens: a request to the pool, or a token instruction. The pool's signer is a derived address,
so nothing outside the pool program is signed by it. -/
inductive Move (E : PoolEnv) (k : PoolKind) (st : PoolState) : World → World → Prop where
  | exec {w w' : World} {accts : List AccMeta} {act : Action} (hk : ∀ a ∈ accts, a.key = st.signer → a.signer = false)
      (hn : ∀ n, act = .create n ∨ act = .redeem n → n < W64) (h : execute E k st w accts act = .ok w') : Move E k st w w'
  | token {w w' : World} {signs : Nat → Bool} {ix : WorldIx} (hs : signs st.signer = false)
      (h : tokenExec st.mint signs w ix = some w') : Move E k st w w'

/-- Any number of moves. -/
inductive Moves (E : PoolEnv) (k : PoolKind) (st : PoolState) : World → World → Prop where
  | refl (w : World) : Moves E k st w w
  | step {w w' w'' : World} : Moves E k st w w' → Move E k st w' w'' → Moves E k st w w''

theorem Moves.head {E : PoolEnv} {k : PoolKind} {st : PoolState} {w w1 w2 : World} (h : Moves E k st w1 w2)
    (h1 : Move E k st w w1) : Moves E k st w w2 := by
  induction h with
  | refl => exact .step (.refl _) h1
  | step _ h ih => exact .step ih h

/-- A pool whose vaults are distinct and wholly its own, and which alone mints its token. -/
structure Sound (st : PoolState) (w : World) : Prop where
  minter : w.minter = some st.signer
  vaults : ∀ x ∈ st.assets, Held st.signer w.toks x.vault
  distinct : (st.assets.map (·.vault)).Nodup

/-- In every vault, the assets per pool token have not fallen. -/
def NotDiluted (st : PoolState) (w w' : World) : Prop :=
  ∀ x ∈ st.assets, bal w.toks x.vault * w'.supply ≤ bal w'.toks x.vault * w.supply

theorem tokenExec_effect {mint : Nat} {signs : Nat → Bool} {w w' : World} {ix : WorldIx} {vs : Nat}
    (hm : w.minter = some vs) (hs : signs vs = false) (h : tokenExec mint signs w ix = some w') :
    Outside vs w.toks w'.toks ∧ w'.supply ≤ w.supply ∧ w'.minter = w.minter := by
  have hany : w.minter.any signs = false := by rw [hm]; simpa using hs
  have plain : ∀ ix' : TokIx, (tokExec signs w.toks ix').map (fun l => { w with toks := l }) = some w' →
      Outside vs w.toks w'.toks ∧ w'.supply ≤ w.supply ∧ w'.minter = w.minter := by
    intro ix' h
    obtain ⟨l, h1, h2⟩ := Option.map_eq_some_iff.1 h
    cases h2
    exact ⟨tokExec_outside hs h1, Nat.le_refl _, rfl⟩
  cases ix with
  | setMinter new => simp [tokenExec, hany] at h
  | tok ix =>
    cases ix with
    | mint a n =>
      simp only [tokenExec] at h
      split at h
      · cases h
      · split at h
        · simp [hany] at h
        · exact plain _ h
    | burn a auth n =>
      simp only [tokenExec] at h
      split at h
      · cases h
      · split at h
        · split at h
          · obtain ⟨l, h1, h2⟩ := Option.map_eq_some_iff.1 h
            cases h2
            exact ⟨tokExec_outside hs h1, Nat.sub_le _ _, rfl⟩
          · cases h
        · exact plain _ h
    | _ => exact plain _ h

theorem due_ge {a q : Nat} {l : List (Nat × Nat)} (h : (a, q) ∈ l) : q ≤ due a l := by
  induction l with
  | nil => cases h
  | cons p l ih =>
    rw [due_cons]
    rcases List.mem_cons.1 h with rfl | h
    · simp
    · have := ih h
      omega

theorem due_nodup {a q : Nat} {l : List (Nat × Nat)} (hn : (l.map (·.1)).Nodup) (h : (a, q) ∈ l) : due a l = q := by
  induction l with
  | nil => cases h
  | cons p l ih =>
    rw [due_cons]
    simp only [List.map_cons, List.nodup_cons] at hn
    rcases List.mem_cons.1 h with rfl | h
    · rw [due_zero fun r hr e => absurd (List.mem_map.2 ⟨r, hr, e⟩) hn.1]
      simp
    · rw [ih hn.2 h, if_neg fun e => hn.1 (List.mem_map.2 ⟨_, h, e.symm⟩)]
      omega

theorem zip_fst {α β : Type} {l : List α} {m : List β} (h : l.length ≤ m.length) : (l.zip m).map (·.1) = l := by
  induction l generalizing m with
  | nil => simp
  | cons a l ih =>
    cases m with
    | nil => simp at h
    | cons b m => simp [ih (by simpa using h)]

theorem vault_quantity {st : PoolState} {qs : List Nat} (hl : qs.length = st.assets.length) {x : Asset}
    (hx : x ∈ st.assets) : ∃ q, (x.vault, q) ∈ vaultSide st qs := by
  have : x.vault ∈ (vaultSide st qs).map (·.1) := by
    unfold vaultSide
    rw [zip_fst (by simp [hl])]
    exact List.mem_map.2 ⟨x, hx, rfl⟩
  obtain ⟨p, hp, e⟩ := List.mem_map.1 this
  exact ⟨p.2, by rw [← e]; exact hp⟩

end Serum.Pool

namespace Serum.Props
open Serum.Pool

/-- C49, creations. -/
theorem pool_create {E : PoolEnv} {k : PoolKind} {st : PoolState} {w w' : World} {accts : List AccMeta} {n : Nat} (hn : n < W64)
    (h : execute E k st w accts (.create n) = .ok w') :
    ∃ A qs f, Parsed E st w accts A ∧ Creates k st w A n qs f w' := by
  unfold execute at h
  obtain ⟨A, h1, h⟩ := bind_ok h
  have hp := execContext_ok.1 h1
  obtain ⟨qs, f, _, hc, _⟩ := creation_ok hn hp h
  exact ⟨A, qs, f, hp, hc⟩

/-- C49, redemptions. -/
theorem pool_redeem {E : PoolEnv} {k : PoolKind} {st : PoolState} {w w' : World} {accts : List AccMeta} {n : Nat} (hn : n < W64)
    (h : execute E k st w accts (.redeem n) = .ok w') :
    ∃ A qs f, Parsed E st w accts A ∧ Redeems k st w A n qs f w' := by
  unfold execute at h
  obtain ⟨A, h1, h⟩ := bind_ok h
  have hp := execContext_ok.1 h1
  obtain ⟨qs, f, _, hc, _⟩ := redemption_ok hn hp h
  exact ⟨A, qs, f, hp, hc⟩

theorem pool_swap {E : PoolEnv} {k : PoolKind} {st : PoolState} {w w' : World} {accts : List AccMeta} {l : List Nat} :
    execute E k st w accts (.swap l) ≠ .ok w' := by
  intro h
  unfold execute at h
  obtain ⟨A, h1, h⟩ := bind_ok h
  cases h

/-- The basket quoted for a creation is the basket charged. -/
theorem quoted_creation {E : PoolEnv} {k : PoolKind} {st : PoolState} {w w' : World} {accts accts' : List AccMeta} {n : Nat}
    {qs : List Nat} (hn : n < W64) (hq : getBasket E k st w accts' (.create n) = .ok qs)
    (h : execute E k st w accts (.create n) = .ok w') :
    ∃ A f, Parsed E st w accts A ∧ Creates k st w A n qs f w' := by
  unfold execute at h
  obtain ⟨A, h1, h⟩ := bind_ok h
  have hp := execContext_ok.1 h1
  obtain ⟨qs', f, hb, hc, _⟩ := creation_ok hn hp h
  unfold getBasket at hq
  obtain ⟨⟨pool, mint, vaults, auth, l⟩, g1, hq⟩ := bind_ok hq
  obtain ⟨⟨buf, l1⟩, g2, hq⟩ := bind_ok hq
  obtain ⟨⟨prog, l2⟩, g3, hq⟩ := bind_ok hq
  simp only at hq
  split at hq
  · cases hq
  obtain ⟨⟨ps, l3⟩, g4, hq⟩ := bind_ok hq
  obtain ⟨_, g5, hq⟩ := bind_ok hq
  have hv := (baseContext_ok.1 g1).2.2.2.1
  have same : ∀ as bs : List AccMeta, as.map (·.key) = bs.map (·.key) →
      simpleBasket w n true as = simpleBasket w n true bs := by
    intro as
    induction as with
    | nil => intro bs e; cases bs <;> simp_all
    | cons a as ih =>
      intro bs e
      cases bs with
      | nil => simp at e
      | cons b bs =>
        simp only [List.map_cons, List.cons.injEq] at e
        simp only [simpleBasket, e.1, ih bs e.2]
  have : qs = qs' := by
    simp only [PoolKind.basket] at hq hb
    rw [same vaults A.vaults (by rw [hv, hp.vaults])] at hq
    rw [hq] at hb
    cases hb
    rfl
  exact ⟨A, f, hp, this ▸ hc⟩

/-- A request keeps a vault that is the pool's own, and assets per pool token in it do not fall. -/
theorem exec_asset {E : PoolEnv} {k : PoolKind} {st : PoolState} {w w' : World} {accts : List AccMeta} {act : Action}
    (hd : (st.assets.map (·.vault)).Nodup) (hk : ∀ a ∈ accts, a.key = st.signer → a.signer = false)
    (hn : ∀ n, act = .create n ∨ act = .redeem n → n < W64) (h : execute E k st w accts act = .ok w') :
    w'.minter = w.minter ∧ 0 < w.supply ∧ (∀ a, Held st.signer w.toks a → Held st.signer w'.toks a) ∧
    ∀ x ∈ st.assets, Held st.signer w.toks x.vault →
      bal w.toks x.vault * w'.supply ≤ bal w'.toks x.vault * w.supply := by
  unfold execute at h
  obtain ⟨A, h1, h⟩ := bind_ok h
  have hp := execContext_ok.1 h1
  have hauth : A.userAuth.signer = true → A.userAuth.key ≠ st.signer := by
    intro e1 e2
    obtain ⟨pool, rest, hl⟩ := hp.listed
    have := hk A.userAuth (by rw [hl]; simp) e2
    rw [e1] at this
    cases this
  cases act with
  | swap l => cases h
  | create n =>
    obtain ⟨qs, f, _, hc, hheld, hsrc, _⟩ := creation_ok (hn n (.inl rfl)) hp h
    refine ⟨hc.minter, hc.alive, fun a ha => hheld _ _ ha, fun x hx hhx => ?_⟩
    obtain ⟨q, hq⟩ := vault_quantity hc.basket hx
    have hne := hauth (hc.signed (List.ne_nil_of_mem hx))
    have hx0 : due x.vault (userSide A qs) = 0 :=
      due_zero fun p hp e => absurd (e ▸ (List.of_mem_zip hp).1) (hsrc _ _ hhx hne)
    have hb := hc.bal x.vault
    have hge := due_ge hq
    have hprice := (hc.price _ hq).1
    have hb2 : bal w.toks x.vault + q ≤ bal w'.toks x.vault := by omega
    have h3 := Nat.mul_le_mul_right w.supply hb2
    rw [hc.supply]
    simp only at hprice
    rw [Nat.add_mul] at h3
    rw [Nat.mul_add]
    omega
  | redeem n =>
    obtain ⟨qs, f, _, hc, hheld, hsrc⟩ := redemption_ok (hn n (.inr rfl)) hp h
    have hsup := hc.supply
    refine ⟨hc.minter, hc.alive, fun a ha => hheld _ _ ha, fun x hx hhx => ?_⟩
    obtain ⟨q, hq⟩ := vault_quantity hc.basket hx
    have hne := hauth hc.signed
    have hup : due x.vault [(A.userPool.key, n)] = 0 := by
      rw [due_cons, due_nil, if_neg]
      intro e
      simp only at e
      exact hne (hsrc _ (e ▸ hhx))
    have hb := hc.bal x.vault
    have hdue : due x.vault (vaultSide st qs) = q := by
      refine due_nodup ?_ hq
      unfold vaultSide
      rw [zip_fst (by simp [hc.basket])]
      exact hd
    have hprice := (hc.price _ hq).1
    simp only at hprice
    have hb2 : bal w.toks x.vault ≤ bal w'.toks x.vault + q := by omega
    have h3 := Nat.mul_le_mul_right w.supply hb2
    rw [Nat.add_mul] at h3
    have h4 : bal w.toks x.vault * w.supply = bal w.toks x.vault * w'.supply + bal w.toks x.vault * (n - f.sum) := by
      rw [← Nat.mul_add, hsup]
    omega

/-- One move keeps the pool sound and dilutes nobody. -/
theorem move_step {E : PoolEnv} {k : PoolKind} {st : PoolState} {w w' : World} (hs : Sound st w) (h : Move E k st w w') :
    Sound st w' ∧ NotDiluted st w w' ∧ (w.supply = 0 → w'.supply = 0) := by
  cases h with
  | token hk h =>
    obtain ⟨ho, hsup, hm⟩ := tokenExec_effect hs.minter hk h
    refine ⟨⟨by rw [hm, hs.minter], fun x hx => (ho.held _ (hs.vaults x hx)).1, hs.distinct⟩, fun x hx => ?_, by omega⟩
    exact Nat.mul_le_mul (ho.held _ (hs.vaults x hx)).2 hsup
  | exec hk hn h =>
    obtain ⟨e1, e2, e3, e4⟩ := exec_asset hs.distinct hk hn h
    exact ⟨⟨by rw [e1, hs.minter], fun x hx => e3 _ (hs.vaults x hx), hs.distinct⟩, fun x hx => e4 x hx (hs.vaults x hx),
      fun e => absurd e2 (by omega)⟩

/-- C48: whatever happens, assets per pool token never fall. -/
theorem never_diluted {E : PoolEnv} {k : PoolKind} {st : PoolState} {w w' : World} (hs : Sound st w) (h : Moves E k st w w') :
    Sound st w' ∧ NotDiluted st w w' ∧ (w.supply = 0 → w'.supply = 0) := by
  induction h with
  | refl => exact ⟨hs, fun _ _ => Nat.le_refl _, fun e => e⟩
  | step _ h ih =>
    rename_i w1 w2 _
    obtain ⟨i1, i2, i3⟩ := ih
    obtain ⟨m1, m2, m3⟩ := move_step i1 h
    refine ⟨m1, fun x hx => ?_, fun e => m3 (i3 e)⟩
    have a := i2 x hx
    have b := m2 x hx
    by_cases h0 : w1.supply = 0
    · rw [m3 h0]; simp
    · refine Nat.le_of_mul_le_mul_right ?_ (Nat.pos_of_ne_zero h0)
      calc bal w.toks x.vault * w2.supply * w1.supply
          = bal w.toks x.vault * w1.supply * w2.supply := by rw [Nat.mul_right_comm]
        _ ≤ bal w1.toks x.vault * w.supply * w2.supply := Nat.mul_le_mul_right _ a
        _ = bal w1.toks x.vault * w2.supply * w.supply := by rw [Nat.mul_right_comm]
        _ ≤ bal w2.toks x.vault * w1.supply * w.supply := Nat.mul_le_mul_right _ b
        _ = bal w2.toks x.vault * w.supply * w1.supply := by rw [Nat.mul_right_comm]

/-- C48: if at the end there are as many pool tokens as before, nothing has been taken out of any vault. -/
theorem no_profit {E : PoolEnv} {k : PoolKind} {st : PoolState} {w w' : World} (hs : Sound st w) (h : Moves E k st w w')
    (h0 : 0 < w.supply) (hsup : w.supply ≤ w'.supply) {x : Asset} (hx : x ∈ st.assets) :
    bal w.toks x.vault ≤ bal w'.toks x.vault := by
  have := (never_diluted hs h).2.1 x hx
  refine Nat.le_of_mul_le_mul_right (Nat.le_trans (Nat.mul_le_mul_left _ hsup) this) h0

/-- C48: creating and then redeeming the same quantity, with any moves of others that leave as many pool tokens
in between, never takes out of any vault more than was put in. -/
theorem round_trip {E : PoolEnv} {k : PoolKind} {st : PoolState} {w w1 w2 w3 : World} {accts accts' : List AccMeta} {n m : Nat}
    (hs : Sound st w) (hn : n < W64) (hmn : m ≤ n) (hk : ∀ a ∈ accts ++ accts', a.key = st.signer → a.signer = false)
    (hc : execute E k st w accts (.create n) = .ok w1) (hb : Moves E k st w1 w2) (hsup : w1.supply ≤ w2.supply)
    (hr : execute E k st w2 accts' (.redeem m) = .ok w3) {x : Asset} (hx : x ∈ st.assets) :
    bal w.toks x.vault ≤ bal w3.toks x.vault := by
  obtain ⟨A, qs, f, _, c⟩ := pool_create hn hc
  obtain ⟨A', qs', f', _, r⟩ := pool_redeem (Nat.lt_of_le_of_lt hmn hn) hr
  have mv : Moves E k st w w3 := by
    have m1 : Move E k st w w1 := .exec (fun a ha => hk a (by simp [ha])) (fun j hj => by rcases hj with h | h <;> cases h; exact hn) hc
    have m3 : Move E k st w2 w3 := .exec (fun a ha => hk a (by simp [ha]))
      (fun j hj => by rcases hj with h | h <;> cases h; exact Nat.lt_of_le_of_lt hmn hn) hr
    have := hb.head m1
    exact .step this m3
  refine no_profit hs mv c.alive ?_ hx
  have := r.supply
  have := c.supply
  omega

/-! ### A pool with two assets -/

namespace PoolDemo

def E : PoolEnv := ⟨7, 8, 6, fun _ _ => some 9, fun _ => true, fun _ => 5⟩

def st : PoolState :=
  { mint := 1, assets := [⟨2, 20⟩, ⟨3, 21⟩], signer := 9, nonce := 0, params := [], lqdVault := 40, initVault := 41,
    feeRate := 2500, admin := none, custom := none }

def tok (mint owner amount : Nat) : Tok := ⟨mint, owner, amount, false, none, 0, none⟩

def w : World :=
  { toks := fun a =>
      if a = 20 then some (tok 2 9 1000) else if a = 21 then some (tok 3 9 777)
      else if a = 30 then some (tok 2 50 5000) else if a = 31 then some (tok 3 50 5000)
      else if a = 32 then some (tok 1 50 10) else if a = 40 then some (tok 1 8 0)
      else if a = 41 then some (tok 1 51 90) else if a = 42 then some (tok 1 52 0) else none
    supply := 100
    minter := some 9 }

def accts : List AccMeta :=
  [⟨4, false⟩, ⟨1, false⟩, ⟨20, false⟩, ⟨21, false⟩, ⟨9, false⟩, ⟨32, false⟩, ⟨30, false⟩, ⟨31, false⟩, ⟨50, true⟩,
    ⟨40, false⟩, ⟨41, false⟩, ⟨42, false⟩, ⟨7, false⟩]

def run (act : Action) (w : World) : World := match execute E .simple st w accts act with | .ok w => w | .error _ => w

def isOk (act : Action) (w : World) : Bool := match execute E .simple st w accts act with | .ok _ => true | .error _ => false

def w1 := run (.create 33) w
def w2 := run (.redeem 33) w1

/-- Creating 33 tokens costs 330 and 257 (rounded up); one token goes to the protocol. Redeeming them gives back
less. -/
example : Sound st w ∧ isOk (.create 33) w = true ∧ isOk (.redeem 33) w1 = true ∧
    (bal w1.toks 20, bal w1.toks 21, bal w1.toks 32, bal w1.toks 40, w1.supply) = (1330, 1034, 42, 1, 133) ∧
    (bal w2.toks 20, bal w2.toks 21, bal w2.toks 32, bal w2.toks 40, w2.supply) = (1010, 786, 9, 2, 101) := by
  refine ⟨⟨rfl, ?_, by decide⟩, by decide +kernel, by decide +kernel, by decide +kernel, by decide +kernel⟩
  intro x hx
  simp only [st, List.mem_cons, List.not_mem_nil, or_false] at hx
  rcases hx with rfl | rfl
  · exact ⟨tok 2 9 1000, rfl, rfl, rfl, rfl⟩
  · exact ⟨tok 3 9 777, rfl, rfl, rfl, rfl⟩

/-- Why the vaults must be distinct: the same vault listed twice, as `Initialize` allows, is paid out twice. -/
def stTwice : PoolState := { st with assets := [⟨2, 20⟩, ⟨2, 20⟩] }

example : (match execute E .simple stTwice { w with supply := 40 }
      [⟨4, false⟩, ⟨1, false⟩, ⟨20, false⟩, ⟨20, false⟩, ⟨9, false⟩, ⟨32, false⟩, ⟨30, false⟩, ⟨30, false⟩, ⟨50, true⟩,
        ⟨40, false⟩, ⟨41, false⟩, ⟨42, false⟩, ⟨7, false⟩] (.redeem 10) with
    | .ok w' => (bal w'.toks 20, w'.supply)
    | .error _ => (0, 0)) = (550, 31) ∧ ¬ 1000 * 31 ≤ 550 * 40 := by
  decide +kernel

end PoolDemo

end Serum.Props
