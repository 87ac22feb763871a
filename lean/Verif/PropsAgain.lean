import Verif.PropsAnytime
import Verif.PropsCan
import Verif.PropsLife
import Verif.PropsAhead

/-! Sending an instruction again.

A transaction is often sent twice, because the sender could not see whether the first one had gone through.
Here is what the second one does.
-/
namespace Serum.Props
open Serum

/-- A successful instruction leads from a reachable state to a reachable one. -/
theorem reach_ix {P : Params} {s s' : State conc} (h : Reach P s) {env : Env} {accts : List AccMeta} {ix : Instruction}
    (hn : NotVault P s.mkt accts) (hv : IxValid ix) (hp : process conc P env s accts ix = .ok s') : Reach P s' := by
  refine h.step (.instr (env := env) (accts := accts) (data := ix.pack) hn ?_)
  unfold processRaw
  rw [instruction_round_trip ix hv]
  exact hp

/-! ### Transfers of nothing -/

/-- If a transfer could be made, one of nothing between the same accounts can be made later, and changes nothing. -/
theorem spl_nothing {l l0 l' : Ledger} {v d vs n : Nat} (h : splTransfer l v d vs n = .ok l')
    (hk : ∀ a t, l a = some t → ∃ t', l0 a = some t' ∧ t'.mint = t.mint ∧ t'.frozen = t.frozen)
    (hv : Held vs l0 v) (ha : ∀ a t, l0 a = some t → t.amount < W64) : splTransfer l0 v d vs 0 = .ok l0 := by
  unfold splTransfer at h ⊢
  cases h1 : l v with
  | none => rw [h1] at h; cases h
  | some x =>
    cases h2 : l d with
    | none => rw [h1, h2] at h; cases h
    | some y =>
      rw [h1, h2] at h
      simp only at h
      obtain ⟨x', e1, e2, e3⟩ := hk v x h1
      obtain ⟨y', e4, e5, e6⟩ := hk d y h2
      obtain ⟨t, g1, g2, g3, _⟩ := hv
      rw [e1] at g1
      cases g1
      rw [e1, e4]
      simp only
      split at h
      · cases h
      · rename_i hf
        rw [e3, e6, if_neg hf]
        split at h
        · cases h
        · split at h
          · cases h
          · rename_i hm
            rw [if_neg (Nat.not_lt_zero _), e2, e5, if_neg hm]
            unfold debitTok
            rw [g3, if_neg (by simp), g2, if_neg (by simp)]
            simp only
            split
            · rfl
            · rw [if_neg (by have := ha d y' e4; omega)]
              congr 1
              funext a
              by_cases c1 : a = d
              · subst c1; rw [if_pos rfl, e4, ← e5, ← e6]; rfl
              · by_cases c2 : a = v
                · subst c2; rw [if_neg c1, if_pos rfl, e1, ← g2, ← g3]; rfl
                · rw [if_neg c1, if_neg c2]

theorem pays_nothing {vs : Nat} {ts us : List (Nat × Nat × Nat)} {l l' l0 : Ledger} (h : Pays vs ts l l')
    (hz : ∀ x ∈ us, x.2.2 = 0 ∧ ∃ y ∈ ts, y.1 = x.1 ∧ y.2.1 = x.2.1)
    (hk : ∀ a t, l' a = some t → ∃ t', l0 a = some t' ∧ t'.mint = t.mint ∧ t'.frozen = t.frozen)
    (hv : ∀ x ∈ us, Held vs l0 x.1) (ha : ∀ a t, l0 a = some t → t.amount < W64) : Pays vs us l0 l0 := by
  have one : ∀ x ∈ us, splTransfer l0 x.1 x.2.1 vs 0 = .ok l0 := by
    intro x hx
    obtain ⟨_, y, hy, e1, e2⟩ := hz x hx
    rw [← e1, ← e2]
    have hvx := hv x hx
    rw [← e1] at hvx
    clear hz e1 e2
    induction ts generalizing l with
    | nil => cases hy
    | cons z ts ih =>
      obtain ⟨k, h1, h2⟩ := h
      rcases List.mem_cons.1 hy with rfl | hy
      · refine spl_nothing h1 ?_ hvx ha
        intro a t ht
        obtain ⟨t1, f1, f2, f3⟩ := Props.spl_keeps h1 a t ht
        obtain ⟨t2, f4, f5, f6⟩ := Pays.keeps h2 a t1 f1
        obtain ⟨t3, f7, f8, f9⟩ := hk a t2 f4
        exact ⟨t3, f7, f8.trans (f5.trans f2), f9.trans (f6.trans f3)⟩
      · exact ih h2 hy
  clear hv h
  induction us with
  | nil => rfl
  | cons x us ih =>
    refine ⟨l0, ?_, ih (fun y hy => hz y (List.mem_cons_of_mem _ hy)) (fun y hy => one y (List.mem_cons_of_mem _ hy))⟩
    rw [(hz x List.mem_cons_self).1]
    exact one x List.mem_cons_self

theorem wsub_nothing {a : Nat} (h : a < W64) : wsub a 0 = a := by unfold wsub W64 at *; omega
theorem wadd_nothing {a : Nat} (h : a < W64) : wadd a 0 = a := by unfold wadd W64 at *; omega

/-! ### Settling and sweeping -/

section settle
variable {I : Impl} {P : Params} {vs A : Nat} {o o' : OpenOrders} {b : Bool} {ts : List (Nat × Nat × Nat)} {l : Ledger}
  {x : State I}

/-- Settlement arguments stay good after payments and a change of the same account that leaves its owner alone. -/
theorem settleArgs_again {env : Env} {a : SettleAccts} {r r' : OpenOrders} {g : Market → Market}
    (hg : ∀ m, (g m).ownAddress = m.ownAddress ∧ (g m).flags = m.flags ∧ (g m).coinVault = m.coinVault ∧
      (g m).pcVault = m.pcVault ∧ (g m).coinMint = m.coinMint ∧ (g m).pcMint = m.pcMint ∧
      (g m).vaultSignerNonce = m.vaultSignerNonce)
    (hp : Pays vs ts x.toks l) (hc : r'.closed = r.closed) (ho : r'.owner = r.owner)
    (e : settleArgs P env x.toCore a = .ok r) :
    settleArgs P env (moved g a.oo.key r' l x).toCore a = .ok r' := by
  obtain ⟨_, k2, k3, k4⟩ := settleArgs_inv e
  obtain ⟨g1, g2, g3, g4, g5, g6, g7⟩ := hg x.mkt
  unfold Serum.settleArgs at e ⊢
  obtain ⟨v1, e1, e⟩ := bind_ok e
  obtain ⟨v2, e2, e⟩ := bind_ok e
  obtain ⟨v3, e3, e⟩ := bind_ok e
  obtain ⟨v4, e4, e⟩ := bind_ok e
  obtain ⟨v5, e5, e⟩ := bind_ok e
  obtain ⟨v6, e6, e⟩ := bind_ok e
  obtain ⟨v7, e7, e⟩ := bind_ok e
  obtain ⟨v8, e8, e⟩ := bind_ok e
  obtain ⟨v9, e9, e⟩ := bind_ok e
  have pw : ∀ {z : AccMeta} {u : Unit}, pcWallet x.toCore z = .ok u → pcWallet (moved g a.oo.key r' l x).toCore z = .ok u := by
    intro z u e
    unfold pcWallet at e ⊢
    obtain ⟨t, f1, e⟩ := bind_ok e
    obtain ⟨t', f2, em⟩ := tokAcct_pays hp f1
    refine bind_go f2 ?_
    show _ = _
    simp only [moved, g6, em]
    exact e
  have cw : ∀ {z : AccMeta} {u : Unit}, coinWallet x.toCore z = .ok u →
      coinWallet (moved g a.oo.key r' l x).toCore z = .ok u := by
    intro z u e
    unfold coinWallet at e ⊢
    obtain ⟨t, f1, e⟩ := bind_ok e
    obtain ⟨t', f2, em⟩ := tokAcct_pays hp f1
    refine bind_go f2 ?_
    simp only [moved, g5, em]
    exact e
  have pv : ∀ {z : AccMeta} {u : Unit}, pcVault x.toCore z = .ok u → pcVault (moved g a.oo.key r' l x).toCore z = .ok u := by
    intro z u e
    unfold pcVault at e ⊢
    obtain ⟨t, f1, e⟩ := bind_ok e
    obtain ⟨t', f2, em⟩ := tokAcct_pays hp f1
    refine bind_go f2 ?_
    simp only [moved, g4]
    exact e
  have cv : ∀ {z : AccMeta} {u : Unit}, coinVault x.toCore z = .ok u →
      coinVault (moved g a.oo.key r' l x).toCore z = .ok u := by
    intro z u e
    unfold coinVault at e ⊢
    obtain ⟨t, f1, e⟩ := bind_ok e
    obtain ⟨t', f2, em⟩ := tokAcct_pays hp f1
    refine bind_go f2 ?_
    simp only [moved, g3]
    exact e
  have e8' : checkReferrer (moved g a.oo.key r' l x).toCore a.referrer = .ok v8 := by
    unfold checkReferrer at e8 ⊢
    cases hr : a.referrer with
    | none => rw [hr] at e8
    | some r => rw [hr] at e8; exact orAssert_go pw e8
  have e2' : loadMarket (moved g a.oo.key r' l x).toCore a.market true = .ok v2 := by
    unfold loadMarket at e2 ⊢
    simp only [moved, g1, g2]
    exact e2
  have e9' : vaultSignerAcct P (moved g a.oo.key r' l x).toCore a.vaultSigner = .ok v9 := by
    unfold vaultSignerAcct at e9 ⊢
    simp only [moved, g1, g7]
    exact e9
  refine bind_go e1 (bind_go e2' (bind_go e3 (bind_go (orAssert_go cv e4) (bind_go (orAssert_go pv e5)
    (bind_go (orAssert_go cw e6) (bind_go (orAssert_go pw e7) (bind_go e8' (bind_go e9' ?_))))))))
  unfold loadOrders
  rw [show ooAt (moved g a.oo.key r' l x).toCore.oos a.oo.key = some r' from by
    show ooAt (setOo x.oos a.oo.key r') a.oo.key = _; rw [ooAt_setOo, if_pos rfl]]
  simp only [hc, k3, ho, k4]
  simp

end settle

/-- C107. Settling again, with the same accounts and no other step in between, succeeds and changes nothing: nobody is
paid twice. -/
theorem settle_again {P : Params} {s s' : State conc} (h : Reach P s) (hq : s.seq ≤ W64) {env env' : Env}
    {accts : List AccMeta} (hn : NotVault P s.mkt accts) (hx : process conc P env s accts .settleFunds = .ok s') :
    process conc P env' s' accts .settleFunds = .ok s' := by
  have hr := reach_ix h hn (by trivial) hx
  replace hx : settleFunds conc P env s accts = .ok s' := hx
  show settleFunds conc P env' s' accts = .ok s'
  obtain ⟨a, o, l, vs, h1, h2, h3, h4, h5, h6, h7⟩ := settle_iff.1 hx
  have hq' : s'.seq ≤ W64 := by rw [h7]; exact hq
  obtain ⟨vs', hv, _, hi⟩ := hr.view hq'
  have ev : P.vaultSigner s'.mkt.ownAddress s'.mkt.vaultSignerNonce = some vs := by rw [h7]; exact h5
  rw [ev] at hv
  cases hv
  have hl : s'.toks = l := by rw [h7]; rfl
  have h2' : settleArgs P env' s.toCore a = .ok o := by
    obtain ⟨_, k2, _, _⟩ := settleArgs_inv h2
    rw [← h2]
    unfold settleArgs loadOrders
    rw [k2]
  have args : settleArgs P env' s'.toCore a = .ok (paidOo o) := by
    rw [h7]
    exact settleArgs_again (r := o) (r' := paidOo o) (fun m => ⟨rfl, rfl, rfl, rfl, rfl, rfl, rfl⟩) h6 rfl rfl h2'
  refine settle_iff.2 ⟨a, paidOo o, l, vs, h1, args, Nat.zero_le _, Nat.zero_le _, ev, ?_, ?_⟩
  · rw [hl]
    refine pays_nothing h6 ?_ (fun a t ht => ⟨t, ht, rfl, rfl⟩) ?_ (by rw [← hl]; exact hi.funds.amounts)
    · intro x hx
      have hx : x ∈ [(s.mkt.coinVault, a.coinWallet.key, 0), (s.mkt.pcVault, a.pcWallet.key, 0)] := by
        have : payments s'.mkt a (paidOo o) = [(s.mkt.coinVault, a.coinWallet.key, 0), (s.mkt.pcVault, a.pcWallet.key, 0)] := by
          rw [h7]
          unfold payments
          cases a.referrer <;> rfl
        rw [← this]; exact hx
      simp only [List.mem_cons, List.not_mem_nil, or_false] at hx
      rcases hx with rfl | rfl
      · exact ⟨rfl, (s.mkt.coinVault, a.coinWallet.key, o.coinFree), by simp [payments], rfl, rfl⟩
      · exact ⟨rfl, (s.mkt.pcVault, a.pcWallet.key, o.pcFree), by simp [payments], rfl, rfl⟩
    · intro x hx
      have e1 : s'.mkt.coinVault = s.mkt.coinVault := by rw [h7]; rfl
      unfold payments at hx
      rw [← hl]
      rcases List.mem_append.1 hx with hx | hx
      · simp only [List.mem_cons, List.not_mem_nil, or_false] at hx
        rcases hx with rfl | rfl
        · exact hi.funds.coin
        · exact hi.funds.pc
      · revert hx
        cases a.referrer <;> intro hx <;> cases hx
  · have hm := hi.shape.mkt
    have em : settleShift (paidOo o) (refPaid a (paidOo o)) s'.mkt = s'.mkt := by
      unfold settleShift refPaid
      show ({ s'.mkt with
        coinDeposits := wsub s'.mkt.coinDeposits 0
        pcDeposits := wsub s'.mkt.pcDeposits 0
        pcFees := if (a.referrer.isSome && decide (0 < 0)) = true then s'.mkt.pcFees else wadd s'.mkt.pcFees 0
        referrerRebates := wsub s'.mkt.referrerRebates 0 } : Market) = _
      rw [wsub_nothing hm.coinDeposits, wsub_nothing hm.pcDeposits, wsub_nothing hm.rebates, wadd_nothing hm.pcFees]
      simp
    have eo : setOo s'.oos a.oo.key (paidOo (paidOo o)) = s'.oos := by
      refine setOo_same ?_
      rw [h7]
      show ooAt (setOo s.oos a.oo.key (paidOo o)) a.oo.key = _
      rw [ooAt_setOo, if_pos rfl]
      rfl
    unfold moved
    rw [em, eo, ← hl]

/-- C107. Sweeping again, with the same accounts and no other step in between, succeeds and moves nothing. -/
theorem sweep_again {P : Params} {s s' : State conc} (h : Reach P s) (hq : s.seq ≤ W64) {env env' : Env}
    {accts : List AccMeta} (hn : NotVault P s.mkt accts) (hx : process conc P env s accts .sweepFees = .ok s') :
    process conc P env' s' accts .sweepFees = .ok s' := by
  have hr := reach_ix h hn (by trivial) hx
  replace hx : sweepFees conc P s accts = .ok s' := hx
  show sweepFees conc P s' accts = .ok s'
  unfold sweepFees at hx
  split at hx
  · rename_i m pv auth w vsA t
    obtain ⟨v1, e1, hx⟩ := bind_ok hx
    obtain ⟨v2, e2, hx⟩ := bind_ok hx
    obtain ⟨v3, e3, hx⟩ := bind_ok hx
    obtain ⟨v4, e4, hx⟩ := bind_ok hx
    obtain ⟨v5, e5, hx⟩ := bind_ok hx
    obtain ⟨v6, e6, hx⟩ := bind_ok hx
    obtain ⟨v7, e7, hx⟩ := bind_ok hx
    obtain ⟨l, e8, hx⟩ := bind_ok hx
    have hs := (Except.ok.inj hx).symm
    obtain ⟨vs, f1, f2⟩ := send_iff.1 e8
    have hp : Pays vs [(s.mkt.pcVault, w.key, s.mkt.pcFees)] s.toks l := ⟨l, f2, rfl⟩
    have hq' : s'.seq ≤ W64 := by rw [hs]; exact hq
    obtain ⟨vs', hv, _, hi⟩ := hr.view hq'
    have ev : P.vaultSigner s'.mkt.ownAddress s'.mkt.vaultSignerNonce = some vs := by rw [hs]; exact f1
    rw [ev] at hv
    cases hv
    have hl : s'.toks = l := by rw [hs]
    unfold sweepFees
    refine bind_go (a := ()) (by rw [hs]; exact e1) (bind_go (a := ()) ?_ (bind_go (a := ()) ?_ (bind_go (a := ()) (by rw [hs]; exact e4)
      (bind_go e5 (bind_go e6 (bind_go e7 (bind_go (a := l) ?_ ?_)))))))
    · unfold pcVault at e2 ⊢
      obtain ⟨t, k1, e2⟩ := bind_ok e2
      obtain ⟨t', k2, _⟩ := tokAcct_pays hp k1
      exact bind_go (by rw [hl]; exact k2) (by rw [hs]; exact e2)
    · unfold pcWallet at e3 ⊢
      obtain ⟨t, k1, e3⟩ := bind_ok e3
      obtain ⟨t', k2, em⟩ := tokAcct_pays hp k1
      exact bind_go (by rw [hl]; exact k2) (by rw [hs, em]; exact e3)
    · refine send_iff.2 ⟨vs, ev, ?_⟩
      have z := pays_nothing (us := [(s.mkt.pcVault, w.key, 0)]) (l0 := l) hp (by simp)
        (fun a t ht => ⟨t, ht, rfl, rfl⟩) (by
          intro x hx
          simp only [List.mem_cons, List.not_mem_nil, or_false] at hx
          subst hx
          have := hi.funds.pc
          rw [hl] at this
          rw [hs] at this
          exact this) (by rw [← hl]; exact hi.funds.amounts)
      obtain ⟨k, z1, z2⟩ := z
      cases z2
      rw [hl]
      rw [hs]
      exact z1
    · show Except.ok _ = _
      rw [hs]
  · cases hx

/-! ### Opening and closing an account, disabling -/

/-- C107. Opening an account again succeeds and changes nothing; so does opening one's account that is already open. -/
theorem open_again {P : Params} {s s' : State conc} {env env' : Env} {accts : List AccMeta}
    (hx : process conc P env s accts .initOpenOrders = .ok s') :
    process conc P env' s' accts .initOpenOrders = .ok s' := by
  replace hx : initOpenOrders conc env s accts = .ok s' := hx
  show initOpenOrders conc env' s' accts = .ok s'
  obtain ⟨oo, owner, m, rent, rest, rfl, h1, h2, h3⟩ := init_inv hx
  have hk : ∃ o, ooAt s'.oos oo.key = some o ∧ o.closed = false ∧ o.owner = owner.key := by
    rcases h3 with ⟨rfl, h3⟩ | ⟨rfl, _⟩
    · exact h3
    · refine ⟨OpenOrders.init owner.key, ?_, rfl, rfl⟩
      show ooAt (setOo _ _ _) _ = _
      rw [ooAt_setOo, if_pos rfl]
  have hm : loadMarket s'.toCore m false = .ok () := by
    rcases h3 with ⟨rfl, _⟩ | ⟨rfl, _⟩ <;> exact h2
  obtain ⟨o, k1, k2, k3⟩ := hk
  unfold initOpenOrders at hx ⊢
  simp only at hx ⊢
  split at hx
  · rename_i hlen
    rw [if_pos hlen]
    obtain ⟨au, e1, hx⟩ := bind_ok hx
    obtain ⟨_, e2, hx⟩ := bind_ok hx
    refine bind_go e1 (bind_go e2 (bind_go hm (bind_go (a := o) ?_ ?_)))
    · unfold loadOrders
      rw [k1]
      simp [k2, k3]
    · rw [setOo_same k1]
      rfl
  · cases hx

/-- C107. Closing an account again is refused. -/
theorem close_again {P : Params} {s s' : State conc} (h : Reach P s) (hq : s.seq ≤ W64) {env env' : Env}
    {accts : List AccMeta} (hx : process conc P env s accts .closeOpenOrders = .ok s') {s2 : State conc} :
    process conc P env' s' accts .closeOpenOrders ≠ .ok s2 := by
  intro h2
  replace hx : closeOpenOrders conc env s accts = .ok s' := hx
  replace h2 : closeOpenOrders conc env' s' accts = .ok s2 := h2
  obtain ⟨oo, owner, dest, m, o, rfl, _, _, _, _, _, _, _, _, rfl⟩ := (close_iff h hq env accts).1 hx
  unfold closeOpenOrders at h2
  obtain ⟨_, _, h2⟩ := bind_ok h2
  obtain ⟨_, _, h2⟩ := bind_ok h2
  obtain ⟨o2, h3, h2⟩ := bind_ok h2
  unfold loadOrders at h3
  rw [show ooAt (setOo s.oos oo.key { o with closed := true }) oo.key = some { o with closed := true } from by
    rw [ooAt_setOo, if_pos rfl]] at h3
  cases h3

/-- C107. Disabling again is refused, at once or at any later moment. -/
theorem disable_again {P : Params} {s s' s2 s3 : State conc} (h : Reach P s) (hq : s.seq ≤ W64) {env env' : Env}
    {accts accts' : List AccMeta} (hn : NotVault P s.mkt accts)
    (hx : process conc P env s accts .disableMarket = .ok s') (hl : Later P s' s2) :
    process conc P env' s2 accts' .disableMarket ≠ .ok s3 := by
  intro h2
  have hr := reach_ix h hn (by trivial) hx
  replace hx : disableMarket conc P s accts = .ok s' := hx
  replace h2 : disableMarket conc P s2 accts' = .ok s3 := h2
  obtain ⟨_, _, _, _, _, _, _, rfl⟩ := (disable_iff h accts).1 hx
  obtain ⟨_, _, _, _, hd, _, _, _⟩ := (disable_iff (hl.reach hr) accts').1 h2
  refine hd (disabled_forever hr hq ?_ hl).disabled
  show (s.mkt.flags ||| 128).testBit 7 = true
  rw [Nat.testBit_or]
  simp [show Nat.testBit 128 7 = true from by decide]

/-! ### Cancelling -/

/-- An order that is not there is not found. -/
theorem cancelOrderV2_absent {P : Params} {s : State conc} (hg : Good P s) {sd : Side} {a id : Nat} {oo : OpenOrders}
    (hx : ∀ x ∈ resting s sd, x.key ≠ id) : cancelOrderV2 conc (s.ob conc s.mkt) sd a oo id = .error .orderNotFound := by
  have h1 : cancelOrderV2 lst ((absState s).ob lst s.mkt) sd a oo id = .error .orderNotFound := by
    unfold cancelOrderV2
    have hf : ((((absState s).ob lst s.mkt).side lst sd).items).find? (fun x => x.key == id) = none := by
      rw [List.find?_eq_none]
      intro x hm
      have := hx x (by cases sd <;> exact hm)
      simpa using this
    rw [show lst.remove (((absState s).ob lst s.mkt).side lst sd) id =
      .ok (⟨(((absState s).ob lst s.mkt).side lst sd).items.filter (fun x => x.key != id),
        (((absState s).ob lst s.mkt).side lst sd).cap⟩, none) from by
        show Except.ok _ = _; rw [hf]]
    rfl
  have h2 := Refines.sim_cancelOrderV2 (hg.rs.ob s.mkt) sd a oo id
  rw [h1] at h2
  cases h3 : cancelOrderV2 conc (s.ob conc s.mkt) sd a oo id with
  | ok r => rw [h3] at h2; cases h2
  | error e => rw [h3] at h2; exact congrArg _ h2

theorem cancelMany_absent {P : Params} {s : State conc} (hg : Good P s) {a : Nat} {oo : OpenOrders} {ks : List (Nat × Side)}
    (hx : ∀ k ∈ ks, ∀ x ∈ resting s k.2, x.key ≠ k.1) :
    cancelMany conc a (s.ob conc s.mkt) oo ks = .ok (s.ob conc s.mkt, oo) := by
  induction ks with
  | nil => rfl
  | cons k ks ih =>
    obtain ⟨id, sd⟩ := k
    unfold cancelMany
    rw [cancelOrderV2_absent hg (hx (id, sd) List.mem_cons_self)]
    exact ih fun k hk => hx k (List.mem_cons_of_mem _ hk)

/-- What a cancel checks of its accounts is unchanged by a withdrawal. -/
theorem cancelArgs_again {s s' : State conc} {ls : List (Side × Leaf)} {env env' : Env} {a : CancelAccts} {oo : OpenOrders}
    (h : cancelArgs env s.toCore a = .ok oo) (hw : Withdrawn s s' a.oo.key ls) :
    cancelArgs env' s'.toCore a = .ok (released s.mkt ls oo) := by
  obtain ⟨k1, k2, k3, k4, _⟩ := cancelArgs_inv h
  obtain ⟨o, w1, w2⟩ := hw.account
  rw [w1] at k2
  cases k2
  unfold cancelArgs at h ⊢
  obtain ⟨_, e1, h⟩ := bind_ok h
  obtain ⟨_, e2, h⟩ := bind_ok h
  obtain ⟨_, e3, h⟩ := bind_ok h
  obtain ⟨_, e4, h⟩ := bind_ok h
  obtain ⟨_, e5, h⟩ := bind_ok h
  obtain ⟨_, e6, h⟩ := bind_ok h
  refine bind_go (a := ()) ?_ (bind_go e2 (bind_go (loadOrders_open w2 k3 k4) (bind_go (a := ()) ?_ (bind_go (a := ()) ?_
    (bind_go (a := ()) ?_ rfl)))))
  · unfold loadMarket at e1 ⊢; rw [hw.mkt]; exact e1
  · unfold loadBids at e4 ⊢; rw [hw.mkt]; exact e4
  · unfold loadAsks at e5 ⊢; rw [hw.mkt]; exact e5
  · unfold loadEventQ at e6 ⊢; rw [hw.mkt]; exact e6

theorem withdrawn_gone {P : Params} {s s' : State conc} (hr : Reach P s) (hq : s.seq ≤ W64) {a : Nat}
    {ls : List (Side × Leaf)} {sd : Side} {l : Leaf} (h : Withdrawn s s' a ls) (hl : (sd, l) ∈ ls) :
    ∀ x ∈ resting s' sd, x.key ≠ l.key := by
  intro x hx e
  rw [h.books] at hx
  obtain ⟨h1, h2⟩ := List.mem_filter.1 hx
  obtain ⟨vs, _, _, hi⟩ := hr.view hq
  have : x = l := by
    have hs := side_sorted hi.shape.book sd
    refine key_unique hs ?_ ?_ e
    · cases sd <;> exact h1
    · have := (h.theirs sd l hl).1
      cases sd <;> exact this
  subst this
  simp [hl] at h2

/-- C107. Cancelling an order again: at once, with the same accounts, it is not found, and nothing else is touched. -/
theorem cancel_again {P : Params} {s s' : State conc} (h : Reach P s) (hq : s.seq ≤ W64) {env env' : Env}
    {accts : List AccMeta} {sd : Side} {id : Nat} (hn : NotVault P s.mkt accts)
    (hv : IxValid (.cancelOrderV2 sd id)) (hx : process conc P env s accts (.cancelOrderV2 sd id) = .ok s') :
    process conc P env' s' accts (.cancelOrderV2 sd id) = .error .orderNotFound := by
  have hr := reach_ix h hn hv hx
  replace hx : cancelV2 conc env s accts sd id = .ok s' := hx
  show cancelV2 conc env' s' accts sd id = _
  obtain ⟨m, b, k, oo, signer, eq, rest, l, o, e1, _, e3, _, e5, hw⟩ := cancel_effect h hq hx
  have hq' : s'.seq ≤ W64 := by rw [hw.seq]; exact hq
  have hgone := withdrawn_gone h hq hw (List.mem_singleton_self _)
  rw [e5] at hgone
  unfold cancelV2 at hx ⊢
  obtain ⟨a, hp, hx⟩ := bind_ok hx
  obtain ⟨o1, ha, hx⟩ := bind_ok hx
  have ea : a.oo.key = oo.key := by
    subst e1
    unfold parseCancel at hp
    cases hp
    rfl
  refine bind_go hp (bind_go (cancelArgs_again ha (ea ▸ hw)) ?_)
  rw [cancelOrderV2_absent (hr.good hq') hgone]
  rfl

/-- C107. A cancelled order cannot be cancelled again at any later moment, by whatever accounts. -/
theorem cancel_again_ever {P : Params} {s s' s2 s3 : State conc} (h : Reach P s) {env env' : Env}
    {accts accts' : List AccMeta} {sd : Side} {id : Nat} (hn : NotVault P s.mkt accts)
    (hv : IxValid (.cancelOrderV2 sd id)) (hx : process conc P env s accts (.cancelOrderV2 sd id) = .ok s')
    (hl : Later P s' s2) (hq : s2.seq ≤ W64) : process conc P env' s2 accts' (.cancelOrderV2 sd id) ≠ .ok s3 := by
  intro h2
  have hr := reach_ix h hn hv hx
  replace hx : cancelV2 conc env s accts sd id = .ok s' := hx
  replace h2 : cancelV2 conc env' s2 accts' sd id = .ok s3 := h2
  have hq1 : s.seq ≤ W64 := Nat.le_trans (Nat.le_trans (process_keeps (P := P) (ix := .cancelOrderV2 sd id) hx).seq (later_kind hl).2) hq
  obtain ⟨m, b, k, oo, signer, eq, rest, l, o, _, _, _, _, e5, hw⟩ := cancel_effect h hq1 hx
  have hgone := withdrawn_gone h hq1 hw (List.mem_singleton_self _)
  obtain ⟨n, p, hnn, hk⟩ := resting_issued h hq1 (hw.theirs sd l (by simp)).1
  obtain ⟨N, r, bal⟩ := orders_recorded hr hl hq
  have := (gone_for_good hr hl hq r bal (sd := sd) (n := n) (price := p) (by rw [hw.seq]; exact hnn)
    (by rw [← hk]; exact hgone)).1
  obtain ⟨_, _, _, _, _, _, _, l2, _, _, _, _, _, f5, hw2⟩ := cancel_effect (hl.reach hr) hq h2
  exact this l2 (hw2.theirs sd l2 (by simp)).1 (by rw [f5, ← e5, hk])

/-- C107. Cancelling by client id again, at once and with the same accounts, is refused as not found: it does not reach
for another order of the account with the same client id. -/
theorem cancel_by_id_again {P : Params} {s s' : State conc} (h : Reach P s) (hq : s.seq ≤ W64) {env env' : Env}
    {accts : List AccMeta} {cid : Nat} (hn : NotVault P s.mkt accts) (hv : IxValid (.cancelOrderByClientIdV2 cid))
    (hx : process conc P env s accts (.cancelOrderByClientIdV2 cid) = .ok s') :
    process conc P env' s' accts (.cancelOrderByClientIdV2 cid) = .error .orderNotFound := by
  have hr := reach_ix h hn hv hx
  replace hx : cancelByClientIdV2 conc env s accts cid = .ok s' := hx
  show cancelByClientIdV2 conc env' s' accts cid = _
  unfold cancelByClientIdV2 at hx ⊢
  obtain ⟨a, hp, hx⟩ := bind_ok hx
  obtain ⟨_, hz, hx⟩ := bind_ok hx
  obtain ⟨o, ha, hx⟩ := bind_ok hx
  obtain ⟨⟨id, sd⟩, hf, hx⟩ := bind_ok hx
  have hc : cancelV2 conc env s accts sd id = .ok s' := by
    unfold cancelV2
    exact bind_go hp (bind_go ha hx)
  obtain ⟨m, b, k, oo, signer, eq, rest, l, o2, e1, _, e3, _, e5, hw⟩ := cancel_effect h hq hc
  have hq' : s'.seq ≤ W64 := by rw [hw.seq]; exact hq
  have hgone := withdrawn_gone h hq hw (List.mem_singleton_self _)
  rw [e5] at hgone
  have ea : a.oo.key = oo.key := by
    subst e1
    unfold parseCancel at hp
    cases hp
    rfl
  refine bind_go hp (bind_go hz (bind_go (cancelArgs_again ha (ea ▸ hw)) (bind_go (a := (id, sd)) hf ?_)))
  simp only
  rw [cancelOrderV2_absent (hr.good hq') hgone]
  rfl

/-- C107. Cancelling a list of client ids again, at once and with the same accounts, succeeds and changes nothing. -/
theorem batch_again {P : Params} {s s' : State conc} (h : Reach P s) (hq : s.seq ≤ W64) {env env' : Env}
    {accts : List AccMeta} {cids : List Nat} (hn : NotVault P s.mkt accts)
    (hv : IxValid (.cancelOrdersByClientIds cids))
    (hx : process conc P env s accts (.cancelOrdersByClientIds cids) = .ok s') :
    process conc P env' s' accts (.cancelOrdersByClientIds cids) = .ok s' := by
  have hr := reach_ix h hn hv hx
  replace hx : cancelByClientIds conc env s accts cids = .ok s' := hx
  show cancelByClientIds conc env' s' accts cids = _
  obtain ⟨m, b, k, oo, signer, eq, rest, o, ls, e1, _, e3, _, hw, hls⟩ := batch_effect h hq hx
  have hq' : s'.seq ≤ W64 := by rw [hw.seq]; exact hq
  obtain ⟨vs, _, _, hi⟩ := h.view hq
  unfold cancelByClientIds at hx ⊢
  obtain ⟨a, hp, hx⟩ := bind_ok hx
  obtain ⟨o1, ha, hx⟩ := bind_ok hx
  have ea : a.oo.key = oo.key := by
    subst e1
    unfold parseCancel at hp
    cases hp
    rfl
  have eo : o1 = o := by
    have := (cancelArgs_inv ha).2.1
    rw [ea] at this
    exact Option.some.inj (this.symm.trans e3)
  subst eo
  rw [← ea] at hw
  refine bind_go hp (bind_go (cancelArgs_again ha hw) ?_)
  have hm := cancelMany_absent (hr.good hq') (a := a.oo.key) (oo := released s.mkt ls o1)
    (ks := selectByClientIds (released s.mkt ls o1) (cids.filter (· != 0))) (by
      rintro ⟨id, sd⟩ hk x hx e
      simp only at e hx
      rw [hw.books] at hx
      obtain ⟨h1, h2⟩ := List.mem_filter.1 hx
      have hsel : (x.key, sd) ∈ selectByClientIds o1 (cids.filter (· != 0)) := by rw [e]; exact hk
      rw [select_resting hi e3 (sd := sd) (by cases sd <;> exact h1)] at hsel
      obtain ⟨g1, c, g2, g3, g4⟩ := hsel
      have : (sd, x) ∈ ls := (hls sd x).2 ⟨h1, g1, c, g2, g3, (List.mem_filter.1 g4).1⟩
      simp [this] at h2)
  refine bind_go hm ?_
  obtain ⟨o2, w1, w2⟩ := hw.account
  have w3 : ooAt s'.oos a.oo.key = some (released s.mkt ls o1) := by
    rw [ea] at w1
    cases w1.symm.trans e3
    exact w2
  simp only
  show Except.ok (s'.back conc (s'.ob conc s'.mkt) a.oo.key (released s.mkt ls o1)) = _
  unfold State.back
  rw [setOo_same w3]
  rfl

/-! ### Cranking -/

/-- C107. Cranking when nothing is queued changes nothing. -/
theorem crank_again {P : Params} {s s' : State conc} (h : Reach P s) (hq : s.seq ≤ W64) {env : Env} {accts : List AccMeta}
    {limit : Nat} (he : pending s = []) :
    (process conc P env s accts (.consumeEvents limit) = .ok s' → s' = s) ∧
    (process conc P env s accts (.consumeEventsPermissioned limit) = .ok s' → s' = s) := by
  have hpk : conc.peek s.q = none := by
    have hg := h.good hq
    obtain ⟨vs, _, hqi, hi⟩ := h.view hq
    have hL := absState_q hg hqi
    rw [concLst.peek hg.rs.q]
    show (absState s).q.items.head? = none
    rw [hL, he]
    rfl
  have loop : ∀ keys n, consumeLoop conc P env keys n s = .ok s' → s' = s := by
    intro keys n hx
    cases n with
    | zero => cases hx; rfl
    | succ n =>
      unfold consumeLoop consumeOne at hx
      rw [hpk] at hx
      exact (Except.ok.inj hx).symm
  constructor
  · intro hx
    replace hx : consumeEvents conc P env s accts limit = .ok s' := hx
    unfold consumeEvents at hx
    obtain ⟨_, _, hx⟩ := bind_ok hx
    split at hx
    · obtain ⟨_, _, hx⟩ := bind_ok hx
      obtain ⟨_, _, hx⟩ := bind_ok hx
      obtain ⟨_, _, hx⟩ := bind_ok hx
      exact loop _ _ hx
    · cases hx
  · intro hx
    replace hx : consumeEventsPermissioned conc P env s accts limit = .ok s' := hx
    unfold consumeEventsPermissioned at hx
    obtain ⟨_, _, hx⟩ := bind_ok hx
    split at hx
    · obtain ⟨_, _, hx⟩ := bind_ok hx
      obtain ⟨_, _, hx⟩ := bind_ok hx
      obtain ⟨_, _, hx⟩ := bind_ok hx
      obtain ⟨_, _, hx⟩ := bind_ok hx
      exact loop _ _ hx
    · cases hx

end Serum.Props

namespace Serum.Demo
open Serum Props

/-- A trader settles, the sweeper takes fees, a bid, an ask and a list of orders are cancelled, an account
is opened, another closed, the market disabled: what each does when sent a second time. -/
theorem again_demo :
    (process conc P env s7 (settleAccts 42 12 22 32 [acc 33]) .settleFunds = .ok s7 ∧ bal s6.toks 32 < bal s7.toks 32) ∧
    (process conc P env s9 sweepAccts .sweepFees = .ok s9 ∧ bal s8.toks 33 < bal s9.toks 33) ∧
    (process conc P env s5 (cancelAccts 42 12) i5 = .error .orderNotFound ∧ resting s4 .bid ≠ []) ∧
    process conc P env s11 (cancelAccts 41 11) i11 = .error .orderNotFound ∧
    (process conc P env p7b (cancelAccts 42 12) (.cancelOrdersByClientIds batchIds) = .ok p7b ∧
      (resting p6 .bid).length = 2 ∧ (resting p7b .bid).length = 1) ∧
    (process conc P env p1 (openAccts 41 11) .initOpenOrders = .ok p1 ∧ p0.oos = [] ∧ p1.oos ≠ []) ∧
    (∀ t, process conc P env s8 (closeAccts 42 12 12) .closeOpenOrders ≠ .ok t) ∧
    (∀ t, process conc P env s11 disableAccts .disableMarket ≠ .ok t) ∧ pending s4 = [] := by
  have hf0 : process conc P env p0 (openAccts 41 11) .initOpenOrders = .ok p1 := run_eq (by decide +kernel)
  refine ⟨⟨settle_again r6 (by decide +kernel) (notVault _ (by decide)) e7, by decide +kernel⟩,
    ⟨sweep_again r8 (by decide +kernel) (notVault _ (by decide)) e9, by decide +kernel⟩,
    ⟨cancel_again r4 (by decide +kernel) (notVault _ (by decide)) (by decide : U128 bidId) e5, by decide +kernel⟩,
    cancel_by_id_again r10 (by decide +kernel) (notVault _ (by decide)) (by decide : U64 7) e11,
    ⟨batch_again k6 (by decide +kernel) (notVault _ (by decide)) (⟨rfl, by decide⟩ : batchIds.length = 8 ∧ _) f7b,
      by decide +kernel, by decide +kernel⟩,
    ⟨open_again hf0, rfl, by decide +kernel⟩,
    fun t => close_again r7 (by decide +kernel) e8, fun t => ?_, by decide +kernel⟩
  exact disable_again r9 (by decide +kernel) (notVault _ (by decide)) e10
    (.step .refl (oneStep (ix := i11) (by decide : U64 7) (by decide +kernel) (by decide)))

/-- An order sent again is a second order. -/
theorem order_again_demo : (resting s1 .ask).length = 1 ∧ fine s1 a1 i1 = true ∧ (resting (run s1 a1 i1) .ask).length = 2 := by
  decide +kernel

end Serum.Demo
