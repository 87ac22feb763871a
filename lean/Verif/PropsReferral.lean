import Verif.PropsJournal
import Verif.PropsLog

/-!
C105: where referral money goes. A fifth of every fee goes into the market's record of referrers' rebates. What accounts
can ever claim of it is exactly the part charged to them; the part charged to send-takes, and what closed accounts left
behind, stays in the record and in the vault for ever.
-/

namespace Serum.Props

/-- What a line adds to the part of the rebates that nobody can claim: a fifth of the fee of a trade without an account, and
what a closed account leaves behind. -/
def Line.lost : Line → Nat
  | .trade _ none fee => fee / 5
  | .forfeit _ r => r
  | _ => 0

/-- The accounts a line is about, for rebates. -/
def Line.about : Line → Option Nat
  | .trade _ k _ => k
  | .payout a .. => some a
  | .forfeit a _ => some a
  | _ => none

/-! ### Sums over accounts -/

theorem total_single {B : List Nat} (hB : B.Nodup) (a n : Nat) :
    total (fun b => if a = b then n else 0) B = if a ∈ B then n else 0 := by
  induction B with
  | nil => rfl
  | cons b B ih =>
    rw [total_cons, ih (List.nodup_cons.1 hB).2]
    have hb := (List.nodup_cons.1 hB).1
    by_cases e : a = b
    · subst e
      simp [hb]
    · simp [e]

theorem total_swap {α β : Type} (f : α → β → Nat) (l : List α) (m : List β) :
    total (fun a => total (f a) m) l = total (fun b => total (fun a => f a b) l) m := by
  induction l with
  | nil => exact (total_zero fun _ _ => rfl).symm
  | cons a l ih =>
    rw [total_cons, ih, ← total_add]
    refine total_congr fun b _ => ?_
    rw [total_cons]

/-- Over all accounts, a line brings into claims what it brings into the record less what is lost at once. -/
theorem line_claims {B : List Nat} (hB : B.Nodup) {x : Line} (hx : ∀ a, x.about = some a → a ∈ B) :
    x.potIn + total (fun b => x.rebateOut b) B = total (fun b => x.rebateIn b) B + x.potOut + x.lost := by
  have z : ∀ f : Nat → Nat, (∀ b, f b = 0) → total f B = 0 := fun f h => total_zero fun b _ => h b
  cases x with
  | deposit a sd n =>
    rw [z (fun b => Line.rebateOut b (.deposit a sd n)) fun _ => rfl, z (fun b => Line.rebateIn b (.deposit a sd n)) fun _ => rfl]
    rfl
  | trade t k fee =>
    rw [z (fun b => Line.rebateOut b (.trade t k fee)) fun _ => rfl]
    cases k with
    | none =>
      rw [z (fun b => Line.rebateIn b (.trade t none fee)) fun b => by simp [Line.rebateIn]]
      simp [Line.potIn, Line.potOut, Line.lost]
    | some a =>
      have : total (fun b => Line.rebateIn b (.trade t (some a) fee)) B = fee / 5 := by
        have e := total_single hB a (fee / 5)
        rw [if_pos (hx a rfl)] at e
        rw [← e]
        exact total_congr fun b _ => by simp [Line.rebateIn]
      rw [this]
      simp [Line.potIn, Line.potOut, Line.lost]
  | payout a n q r ref =>
    rw [z (fun b => Line.rebateIn b (.payout a n q r ref)) fun _ => rfl]
    have e : total (fun b => Line.rebateOut b (.payout a n q r ref)) B = r := by
      have e := total_single hB a r
      rw [if_pos (hx a rfl)] at e
      exact e
    rw [e]
    simp [Line.potIn, Line.potOut, Line.lost]
  | sweep n =>
    rw [z (fun b => Line.rebateOut b (.sweep n)) fun _ => rfl, z (fun b => Line.rebateIn b (.sweep n)) fun _ => rfl]
    rfl
  | forfeit a r =>
    rw [z (fun b => Line.rebateIn b (.forfeit a r)) fun _ => rfl]
    have e : total (fun b => Line.rebateOut b (.forfeit a r)) B = r := by
      have e := total_single hB a r
      rw [if_pos (hx a rfl)] at e
      exact e
    rw [e]
    simp [Line.potIn, Line.potOut, Line.lost]

theorem lines_claims {B : List Nat} (hB : B.Nodup) {J : List Line} (hJ : ∀ x ∈ J, ∀ a, x.about = some a → a ∈ B) :
    total Line.potIn J + total (fun b => total (Line.rebateOut b) J) B =
      total (fun b => total (Line.rebateIn b) J) B + total Line.potOut J + total Line.lost J := by
  rw [total_swap (fun b x => Line.rebateOut b x), total_swap (fun b x => Line.rebateIn b x)]
  induction J with
  | nil => rfl
  | cons x J ih =>
    have h1 := line_claims hB (hJ x (by simp))
    have h2 := ih fun y hy => hJ y (List.mem_cons_of_mem _ hy)
    simp only [total_cons]
    omega

/-- C105. In a market's whole life, told by a journal: what the market records for referrers is exactly what belongs to
accounts, a fifth of every fee charged to a send-take, and what closed accounts left behind. `B` is any list of accounts
without repetition that has at least those the journal is about. -/
theorem referral_money {P : Params} {s s' : State conc} (h : Genesis P s) (hl : Later P s s') (hq : s'.seq ≤ W64) :
    ∃ J, Journal P s s' J ∧ ∀ B : List Nat, B.Nodup → 0 ∉ B → (∀ x ∈ J, ∀ a, x.about = some a → a ∈ B) →
      s'.mkt.referrerRebates = total (rebateClaim s') B + total Line.lost J := by
  obtain ⟨J, j, st, _, pot⟩ := journal_from_start h hl hq
  refine ⟨J, j, fun B hB h0 hJ => ?_⟩
  have h1 := lines_claims hB hJ
  have h2 : total (rebateClaim s') B + total (fun b => total (Line.rebateOut b) J) B =
      total (fun b => total (Line.rebateIn b) J) B := by
    rw [← total_add]
    exact total_congr fun b hb => (st b (fun e => h0 (e ▸ hb))).2.2
  omega

theorem Journal.trans {P : Params} {s s1 s2 : State conc} {J K : List Line} (j : Journal P s s1 J) (k : Journal P s1 s2 K) :
    Journal P s s2 (J ++ K) := by
  induction k with
  | nil => rw [List.append_nil]; exact j
  | act _ ha he ih => rw [← List.append_assoc]; exact ih.act ha he
  | purge _ ho hc ih => rw [← List.append_assoc]; exact ih.purge ho hc
  | token _ h ih => exact ih.token h

/-- C105, for good. What is lost at some moment is still there at every later one: in the market's record, apart from
everything that belongs to accounts, and in the vault, apart from everything that is deposited, the fees and what belongs to
accounts. So nobody was paid it and nobody ever will be. -/
theorem lost_for_good {P : Params} {s s1 s2 : State conc} (h : Genesis P s) (hl : Later P s s1) (hl' : Later P s1 s2)
    (hq : s2.seq ≤ W64) :
    ∃ J K, Journal P s s1 J ∧ Journal P s1 s2 K ∧ ∀ B : List Nat, B.Nodup → 0 ∉ B →
      (∀ x ∈ J ++ K, ∀ a, x.about = some a → a ∈ B) →
      s1.mkt.referrerRebates = total (rebateClaim s1) B + total Line.lost J ∧
      s2.mkt.referrerRebates = total (rebateClaim s2) B + (total Line.lost J + total Line.lost K) ∧
      s2.mkt.pcDeposits + s2.mkt.pcFees + total (rebateClaim s2) B + (total Line.lost J + total Line.lost K) ≤
        bal s2.toks s2.mkt.pcVault := by
  have hr1 := Later.reach (.start h) hl
  have hq1 : s1.seq ≤ W64 := Nat.le_trans (later_seq hr1 hl') hq
  obtain ⟨J, j, st, _, pot⟩ := journal_from_start h hl hq1
  obtain ⟨K, k, st', fe⟩ := journal_accounts hr1 hl' hq
  refine ⟨J, K, j, k, fun B hB h0 hJ => ?_⟩
  have a1 := lines_claims hB (J := J) fun x hx => hJ x (List.mem_append_left _ hx)
  have a2 := lines_claims hB (J := K) fun x hx => hJ x (List.mem_append_right _ hx)
  have b1 : total (rebateClaim s1) B + total (fun b => total (Line.rebateOut b) J) B =
      total (fun b => total (Line.rebateIn b) J) B := by
    rw [← total_add]
    exact total_congr fun b hb => (st b (fun e => h0 (e ▸ hb))).2.2
  have b2 : total (rebateClaim s2) B + total (fun b => total (Line.rebateOut b) K) B =
      total (rebateClaim s1) B + total (fun b => total (Line.rebateIn b) K) B := by
    rw [← total_add, ← total_add]
    exact total_congr fun b hb => (st' b (fun e => h0 (e ▸ hb))).rebate
  have c := fe.pot
  have d := (vault_solvency (Later.reach hr1 hl') hq).2.1
  refine ⟨by omega, by omega, by omega⟩

/-- A send-take of 2 lots at 1000 is charged 8; a fifth of that, 1, is recorded for referrers, and no account has it. The
same trade by an order records 1 that belongs to account 42. -/
example : Later Demo.P Demo.s0 Demo.sT ∧ Demo.sT.mkt.referrerRebates = 1 ∧ rebateClaim Demo.sT 41 = 0 ∧
    Demo.sT.oos.map (·.1) = [41] ∧
    total Line.lost [.deposit 41 .ask 500, .trade ⟨.ask, 41, 18446744073709551616000, 1000, 2⟩ none 8] = 1 ∧
    Demo.s2.mkt.referrerRebates = 1 ∧ rebateClaim Demo.s2 42 = 1 :=
  ⟨Demo.later (Demo.later .refl (Demo.valid (by decide)) (by decide +kernel) (by decide)) Demo.takeValid (by decide +kernel)
    (by decide), by decide +kernel, by decide +kernel, by decide +kernel, by decide, by decide +kernel, by decide +kernel⟩

end Serum.Props
