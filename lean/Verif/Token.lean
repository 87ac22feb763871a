import Verif.InvAll

/-
The SPL token program as used by everybody else: which changes to the token ledger are possible without
the signature of a given key. The source of the token program is not part of the repository; this is its
documented behaviour, trusted as stated in DESIGN.md.
-/

namespace Serum

/-- Token instructions. Mint and freeze authorities are not tracked: minting, freezing, thawing and
wrapping lamports may always happen. -/
inductive TokIx where
  | openAcct (a mint owner : Nat)
  | transfer (src dst auth n : Nat)
  | approve (a delegate auth n : Nat)
  | revoke (a auth : Nat)
  | setOwner (a new auth : Nat)
  | setCloseAuthority (a : Nat) (new : Option Nat) (auth : Nat)
  | mint (a n : Nat)
  | burn (a auth n : Nat)
  | close (a auth : Nat)
  | freeze (a : Nat)
  | thaw (a : Nat)

/-- Overwrite one token account. -/
def Ledger.put (l : Ledger) (a : Nat) (t : Option Tok) : Ledger := fun b => if b = a then t else l b

/-- Who may close an account: the close authority if there is one, else the owner. -/
def Tok.closer (t : Tok) : Nat := t.closeAuth.getD t.owner

/-- The token program; `none` is a failed instruction. `signs k` says whether `k` signed (for a multisig
owner: whether enough of its members signed). Closing an account with tokens is possible for wrapped
lamports, so the balance is not checked. -/
def tokExec (signs : Nat → Bool) (l : Ledger) : TokIx → Option Ledger
  | .openAcct a mint owner =>
    match l a with
    | some _ => none
    | none => some (l.put a (some ⟨mint, owner, 0, false, none, 0, none⟩))
  | .transfer src dst auth n =>
    if signs auth then
      match splTransfer l src dst auth n with
      | .ok l' => some l'
      | .error _ => none
    else none
  | .approve a delegate auth n =>
    match l a with
    | some t => if signs auth ∧ t.owner = auth ∧ t.frozen = false then
        some (l.put a (some { t with delegate := some delegate, delegated := n })) else none
    | none => none
  | .revoke a auth =>
    match l a with
    | some t => if signs auth ∧ t.owner = auth ∧ t.frozen = false then
        some (l.put a (some { t with delegate := none, delegated := 0 })) else none
    | none => none
  | .setOwner a new auth =>
    match l a with
    | some t => if signs auth ∧ t.owner = auth ∧ t.frozen = false then
        some (l.put a (some { t with owner := new, delegate := none, delegated := 0 })) else none
    | none => none
  | .setCloseAuthority a new auth =>
    match l a with
    | some t => if signs auth ∧ t.closer = auth ∧ t.frozen = false then
        some (l.put a (some { t with closeAuth := new })) else none
    | none => none
  | .mint a n =>
    match l a with
    | some t => if t.frozen = false ∧ t.amount + n < W64 then
        some (l.put a (some { t with amount := t.amount + n })) else none
    | none => none
  | .burn a auth n =>
    match l a with
    | some t =>
      if signs auth ∧ t.frozen = false ∧ n ≤ t.amount then
        match debitTok t auth n with
        | .ok t' => some (l.put a (some t'))
        | .error _ => none
      else none
    | none => none
  | .close a auth =>
    match l a with
    | some t => if signs auth ∧ t.closer = auth then some (l.put a none) else none
    | none => none
  | .freeze a =>
    match l a with
    | some t => some (l.put a (some { t with frozen := true }))
    | none => none
  | .thaw a =>
    match l a with
    | some t => some (l.put a (some { t with frozen := false }))
    | none => none

theorem bal_put (l : Ledger) (a b : Nat) (t : Tok) :
    bal (l.put a (some t)) b = if b = a then t.amount else bal l b := by
  unfold bal Ledger.put
  by_cases h : b = a <;> simp [h]

theorem Outside.put {vs : Nat} {l : Ledger} {a : Nat} {t t' : Tok} (ht : l a = some t)
    (hlt : t.amount < W64 → t'.amount < W64)
    (hk : t.owner = vs → t.delegate = none → t.closeAuth = none →
      t'.owner = vs ∧ t'.delegate = none ∧ t'.closeAuth = none ∧ t.amount ≤ t'.amount) :
    Outside vs l (l.put a (some t')) := by
  refine ⟨?_, ?_⟩
  · intro hl b u hu
    unfold Ledger.put at hu
    split at hu
    · cases hu; exact hlt (hl a t ht)
    · exact hl b u hu
  · rintro b ⟨u, e1, e2, e3, e4⟩
    rw [bal_put]
    unfold Held Ledger.put
    by_cases hb : b = a
    · subst hb
      rw [ht] at e1
      cases e1
      obtain ⟨k1, k2, k3, k4⟩ := hk e2 e3 e4
      refine ⟨⟨t', by simp, k1, k2, k3⟩, ?_⟩
      rw [if_pos rfl]; unfold bal; rw [ht]; exact k4
    · exact ⟨⟨u, by simp [hb, e1], e2, e3, e4⟩, by rw [if_neg hb]; exact Nat.le_refl _⟩

theorem Outside.refl (vs : Nat) (l : Ledger) : Outside vs l l :=
  ⟨fun h => h, fun _ h => ⟨h, Nat.le_refl _⟩⟩

theorem Outside.trans {vs : Nat} {l l' l'' : Ledger} (h : Outside vs l l') (h' : Outside vs l' l'') :
    Outside vs l l'' :=
  ⟨fun x => h'.amounts (h.amounts x), fun a x =>
    ⟨(h'.held a (h.held a x).1).1, Nat.le_trans (h.held a x).2 (h'.held a (h.held a x).1).2⟩⟩

/-- Without the signature of `vs`, no token instruction takes control of or tokens from an account held
by `vs`. -/
theorem tokExec_outside {vs : Nat} {signs : Nat → Bool} {l l' : Ledger} {ix : TokIx}
    (hs : signs vs = false) (h : tokExec signs l ix = some l') : Outside vs l l' := by
  have hne : ∀ {x y : Nat}, signs x = true → x = y → y ≠ vs := by
    rintro x y h1 rfl rfl; rw [hs] at h1; cases h1
  cases ix with
  | openAcct a mint owner =>
    simp only [tokExec] at h
    split at h
    · cases h
    · rename_i hn
      cases h
      refine ⟨?_, ?_⟩
      · intro hl b u hu
        unfold Ledger.put at hu
        split at hu
        · cases hu; exact (by decide : (0 : Nat) < W64)
        · exact hl b u hu
      · rintro b ⟨u, e1, e2⟩
        have hb : b ≠ a := by rintro rfl; rw [hn] at e1; cases e1
        rw [bal_put, if_neg hb]
        exact ⟨⟨u, by simp [Ledger.put, hb, e1], e2⟩, Nat.le_refl _⟩
  | transfer src dst auth n =>
    simp only [tokExec] at h
    split at h
    · rename_i ha
      split at h
      · rename_i l1 ht
        cases h
        have hm := splTransfer_moved ht
        refine ⟨hm.amounts, fun a hh => ⟨hm.held vs a hh, ?_⟩⟩
        rw [hm.bal]
        by_cases h1 : src = dst
        · simp [h1]
        · by_cases h2 : a = dst
          · simp [h1, h2]
          · by_cases h3 : a = src
            · subst h3
              exact absurd (hm.auth vs hh) (by intro e; exact hne ha e rfl)
            · simp [h1, h2, h3]
      · cases h
    · cases h
  | approve a d auth n =>
    simp only [tokExec] at h
    split at h
    · rename_i t ht
      split at h
      · rename_i hc
        cases h
        exact .put ht (fun h => h) (fun e => absurd e (hne hc.1 hc.2.1.symm))
      · cases h
    · cases h
  | revoke a auth =>
    simp only [tokExec] at h
    split at h
    · rename_i t ht
      split at h
      · rename_i hc
        cases h
        exact .put ht (fun h => h) (fun e => absurd e (hne hc.1 hc.2.1.symm))
      · cases h
    · cases h
  | setOwner a new auth =>
    simp only [tokExec] at h
    split at h
    · rename_i t ht
      split at h
      · rename_i hc
        cases h
        exact .put ht (fun h => h) (fun e => absurd e (hne hc.1 hc.2.1.symm))
      · cases h
    · cases h
  | setCloseAuthority a new auth =>
    simp only [tokExec] at h
    split at h
    · rename_i t ht
      split at h
      · rename_i hc
        cases h
        refine .put ht (fun h => h) (fun e1 _ e3 => ?_)
        have := hc.2.1
        rw [Tok.closer, e3] at this
        exact absurd e1 (hne hc.1 this.symm)
      · cases h
    · cases h
  | mint a n =>
    simp only [tokExec] at h
    split at h
    · rename_i t ht
      split at h
      · rename_i hc
        cases h
        exact .put ht (fun _ => hc.2) (fun e1 e2 e3 => ⟨e1, e2, e3, Nat.le_add_right _ _⟩)
      · cases h
    · cases h
  | burn a auth n =>
    simp only [tokExec] at h
    split at h
    · rename_i t ht
      split at h
      · rename_i hc
        split at h
        · rename_i t' hd
          cases h
          unfold debitTok at hd
          split at hd
          · rename_i hdel
            split at hd
            · cases hd
            · cases hd
              exact .put ht (fun h => Nat.lt_of_le_of_lt (Nat.sub_le _ _) h)
                (fun _ e2 _ => by rw [e2] at hdel; cases hdel)
          · split at hd
            · cases hd
            · rename_i ho
              cases hd
              refine .put ht (fun h => Nat.lt_of_le_of_lt (Nat.sub_le _ _) h) (fun e1 _ _ => ?_)
              exact absurd e1 (hne hc.1 (Decidable.not_not.1 ho).symm)
        · cases h
      · cases h
    · cases h
  | close a auth =>
    simp only [tokExec] at h
    split at h
    · rename_i t ht
      split at h
      · rename_i hc
        cases h
        refine ⟨?_, ?_⟩
        · intro hl b u hu
          unfold Ledger.put at hu
          split at hu
          · cases hu
          · exact hl b u hu
        · rintro b ⟨u, e1, e2, e3, e4⟩
          have hb : b ≠ a := by
            rintro rfl
            rw [ht] at e1
            cases e1
            have := hc.2
            rw [Tok.closer, e4] at this
            exact hne hc.1 this.symm e2
          refine ⟨⟨u, by simp [Ledger.put, hb, e1], e2, e3, e4⟩, ?_⟩
          unfold bal Ledger.put
          simp [hb]
      · cases h
    · cases h
  | freeze a =>
    simp only [tokExec] at h
    split at h
    · rename_i t ht
      cases h
      exact .put ht (fun h => h) (fun e1 e2 e3 => ⟨e1, e2, e3, Nat.le_refl _⟩)
    · cases h
  | thaw a =>
    simp only [tokExec] at h
    split at h
    · rename_i t ht
      cases h
      exact .put ht (fun h => h) (fun e1 e2 e3 => ⟨e1, e2, e3, Nat.le_refl _⟩)
    · cases h

end Serum
