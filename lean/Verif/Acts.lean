import Verif.Runs
import Verif.PropsFunds

/-
Every successful instruction is a sequence of elementary acts, each between reachable states: a replacement is
a batch cancel followed by new orders, everything else is one act. Used for induction over histories.
-/

namespace Serum.Props

/-- One elementary act, with accounts taken from `accts`. -/
inductive Act (P : Params) (env : Env) (accts : List AccMeta) (s s' : State conc) : Prop where
  | idle (h : s' = s)
  | place {l : List AccMeta} {ix : NewOrderIx} (hl : l ⊆ accts) (hv : OrderValid ix)
      (h : newOrderV3 conc P env s l ix = .ok s')
  | take {l : List AccMeta} {ix : SendTakeIx} (hl : l ⊆ accts) (hv : TakeValid ix)
      (h : sendTake conc P s l ix = .ok s')
  | cancel {l : List AccMeta} {sd : Side} {id : Nat} (hl : l ⊆ accts) (h : cancelV2 conc env s l sd id = .ok s')
  | cancelBy {l : List AccMeta} {c : Nat} (hl : l ⊆ accts) (h : cancelByClientIdV2 conc env s l c = .ok s')
  | batch {l : List AccMeta} {cids : List Nat} (hl : l ⊆ accts) (h : cancelByClientIds conc env s l cids = .ok s')
  | prune {l : List AccMeta} {n : Nat} (hl : l ⊆ accts) (h : prune conc env s l n = .ok s')
  | crank {l : List AccMeta} {n : Nat} (hl : l ⊆ accts)
      (h : consumeEvents conc P env s l n = .ok s' ∨ consumeEventsPermissioned conc P env s l n = .ok s')
  | settle {l : List AccMeta} (hl : l ⊆ accts) (h : settleFunds conc P env s l = .ok s')
  | disable {l : List AccMeta} (hl : l ⊆ accts) (h : disableMarket conc P s l = .ok s')
  | sweep {l : List AccMeta} (hl : l ⊆ accts) (h : sweepFees conc P s l = .ok s')
  | close {l : List AccMeta} (hl : l ⊆ accts) (h : closeOpenOrders conc env s l = .ok s')
  | init {l : List AccMeta} (hl : l ⊆ accts) (h : initOpenOrders conc env s l = .ok s')

/-- A sequence of acts, all in reachable states. -/
inductive Acts (P : Params) (env : Env) (accts : List AccMeta) : State conc → State conc → Prop where
  | nil {s : State conc} (hr : Reach P s) : Acts P env accts s s
  | cons {s s1 s2 : State conc} (hr : Reach P s) (hn : NotVault P s.mkt accts) (h : Act P env accts s s1)
      (t : Acts P env accts s1 s2) : Acts P env accts s s2

theorem _root_.Serum.NotVault.subset {P : Params} {m : Market} {l k : List AccMeta} (h : NotVault P m k) (hl : l ⊆ k) :
    NotVault P m l := fun a ha => h a (hl ha)

theorem replaceCancel_subset {accts ca : List AccMeta} (h : replaceCancelAccts accts = .ok ca) : ca ⊆ accts := by
  unfold replaceCancelAccts at h
  split at h
  · rename_i h0 h1 h2 h3 h4 h5
    cases h
    intro x hx
    simp only [List.mem_cons, List.not_mem_nil, or_false] at hx
    rcases hx with rfl | rfl | rfl | rfl | rfl | rfl
    · exact List.mem_of_getElem? h0
    · exact List.mem_of_getElem? h1
    · exact List.mem_of_getElem? h2
    · exact List.mem_of_getElem? h3
    · exact List.mem_of_getElem? h4
    · exact List.mem_of_getElem? h5
  · cases h

/-- Unused entries of a batch are zero. -/
theorem batch_pad {env : Env} {s : State conc} {accts : List AccMeta} {cids : List Nat} (n : Nat) :
    cancelByClientIds conc env s accts (cids ++ List.replicate n 0) = cancelByClientIds conc env s accts cids := by
  unfold cancelByClientIds
  have e : (cids ++ List.replicate n 0).filter (· != 0) = cids.filter (· != 0) := by
    rw [List.filter_append]; simp
  rw [e]

/-- A batch cancel inside a replacement leaves a reachable state. -/
theorem batch_reach {P : Params} {env : Env} {s s' : State conc} {accts : List AccMeta} {cids : List Nat}
    (h : Reach P s) (hn : NotVault P s.mkt accts) (hl : cids.length ≤ 8) (hu : ∀ c ∈ cids, U64 c)
    (hx : cancelByClientIds conc env s accts cids = .ok s') : Reach P s' := by
  refine h.act (env := env) (accts := accts)
    (ix := .cancelOrdersByClientIds (cids ++ List.replicate (8 - cids.length) 0)) ⟨by simp; omega, ?_⟩ hn
    (by rw [← batch_pad (8 - cids.length)] at hx; exact hx)
  intro c hc
  rcases List.mem_append.1 hc with hc | hc
  · exact hu c hc
  · rw [(List.mem_replicate.1 hc).2]; decide

theorem place_reach {P : Params} {env : Env} {s s' : State conc} {accts : List AccMeta} {ix : NewOrderIx}
    (h : Reach P s) (hn : NotVault P s.mkt accts) (hv : OrderValid ix)
    (hx : newOrderV3 conc P env s accts ix = .ok s') : Reach P s' :=
  h.act (env := env) (accts := accts) (ix := .newOrderV3 ix) hv hn hx

theorem newOrders_acts {P : Params} {env : Env} {accts : List AccMeta} {ixs : List NewOrderIx} :
    ∀ {s s' : State conc}, Reach P s → NotVault P s.mkt accts → (∀ ix ∈ ixs, OrderValid ix) →
    newOrders conc P env s accts ixs = .ok s' → Acts P env accts s s' := by
  induction ixs with
  | nil => intro s s' hr hn hv h; cases h; exact .nil hr
  | cons ix ixs ih =>
    intro s s' hr hn hv h
    unfold newOrders at h
    obtain ⟨s1, h1, h⟩ := bind_ok h
    have hx := hv ix (by simp)
    exact .cons hr hn (.place (fun _ h => h) hx h1)
      (ih (place_reach hr hn hx h1) (hn.keeps (newOrderV3_keeps h1).1) (fun j hj => hv j (by simp [hj])) h)

/-- The two phases of a replacement. -/
theorem replace_parts {P : Params} {env : Env} {s s' : State conc} {accts : List AccMeta} {ixs : List NewOrderIx}
    (hr : Reach P s) (hn : NotVault P s.mkt accts) (hl : ixs.length ≤ 8) (hv : ∀ ix ∈ ixs, OrderValid ix)
    (h : replaceOrders conc P env s accts ixs = .ok s') :
    ∃ ca s1, replaceCancelAccts accts = .ok ca ∧ ca ⊆ accts ∧
      cancelByClientIds conc env s ca (ixs.map (·.clientId)) = .ok s1 ∧ Reach P s1 ∧ NotVault P s1.mkt accts ∧
      newOrders conc P env s1 accts ixs = .ok s' := by
  unfold replaceOrders at h
  obtain ⟨ca, hca, h⟩ := bind_ok h
  obtain ⟨s1, h1, h⟩ := bind_ok h
  rw [List.take_of_length_le (by simpa using hl)] at h1
  have hs := replaceCancel_subset hca
  refine ⟨ca, s1, hca, hs, h1, ?_, hn.keeps (cancelByClientIds_keeps h1).1, h⟩
  refine batch_reach hr (hn.subset hs) (by simpa using hl) ?_ h1
  intro c hc
  obtain ⟨ix, hix, rfl⟩ := List.mem_map.1 hc
  exact (hv ix hix).2.2.2.1

/-- Every successful instruction is a sequence of acts. -/
theorem process_acts {P : Params} {env : Env} {s s' : State conc} {accts : List AccMeta} {ix : Instruction}
    (hr : Reach P s) (hn : NotVault P s.mkt accts) (hv : IxValid ix)
    (h : process conc P env s accts ix = .ok s') : Acts P env accts s s' := by
  have one : Act P env accts s s' → Acts P env accts s s' :=
    fun ha => .cons hr hn ha (.nil (hr.act hv hn h))
  have all : accts ⊆ accts := fun _ h => h
  have repl : ∀ ixs : List NewOrderIx, ixs.length ≤ 8 → (∀ ix ∈ ixs, OrderValid ix) →
      replaceOrders conc P env s accts ixs = .ok s' → Acts P env accts s s' := by
    intro ixs hl hv h
    obtain ⟨ca, s1, _, hs, h1, hr1, hn1, h2⟩ := replace_parts hr hn hl hv h
    exact .cons hr hn (.batch hs h1) (newOrders_acts hr1 hn1 hv h2)
  cases ix with
  | initializeMarket => cases h
  | newOrder => cases h
  | matchOrders => exact one (.idle (by cases h; rfl))
  | consumeEvents => exact one (.crank all (.inl h))
  | cancelOrder => cases h
  | settleFunds => exact one (.settle all h)
  | cancelOrderByClientId => cases h
  | disableMarket => exact one (.disable all h)
  | sweepFees => exact one (.sweep all h)
  | newOrderV2 => cases h
  | newOrderV3 => exact one (.place all hv h)
  | cancelOrderV2 => exact one (.cancel all h)
  | cancelOrderByClientIdV2 => exact one (.cancelBy all h)
  | sendTake => exact one (.take all hv h)
  | closeOpenOrders => exact one (.close all h)
  | initOpenOrders => exact one (.init all h)
  | prune => exact one (.prune all h)
  | consumeEventsPermissioned => exact one (.crank all (.inr h))
  | cancelOrdersByClientIds => exact one (.batch all h)
  | replaceOrderByClientId ix => exact repl [ix] (by simp) (by intro j hj; rw [List.mem_singleton.1 hj]; exact hv) h
  | replaceOrdersByClientIds ixs => exact repl ixs hv.1 hv.2 h

theorem Act.keeps {P : Params} {env : Env} {accts : List AccMeta} {s s' : State conc} (h : Act P env accts s s') :
    Keeps s s' := by
  cases h with
  | idle h => rw [h]; exact .refl _
  | place _ _ h => exact (newOrderV3_keeps h).1
  | take _ _ h => exact (sendTake_keeps h).1
  | cancel _ h => exact (cancelV2_keeps h).1
  | cancelBy _ h => exact (cancelByClientIdV2_keeps h).1
  | batch _ h => exact (cancelByClientIds_keeps h).1
  | prune _ h => exact (prune_keeps h).1
  | crank _ h =>
    obtain ⟨keys, _, hl⟩ := consume_is_loop h
    obtain ⟨h1, h2, h3, _⟩ := consumeLoop_keeps hl
    exact .of_same h1 h2 h3
  | settle _ h => exact (settleFunds_keeps h).1
  | disable _ h => exact (disable_keeps h).1
  | sweep _ h => exact (sweep_keeps h).1
  | close _ h =>
    obtain ⟨h1, h2, h3⟩ := close_keeps h
    exact .of_same h1 h2 h3
  | init _ h =>
    obtain ⟨h1, h2, h3⟩ := initOpen_keeps h
    exact .of_same h1 h2 h3

theorem Act.seq {P : Params} {env : Env} {accts : List AccMeta} {s s' : State conc} (h : Act P env accts s s') :
    s.seq ≤ s'.seq := h.keeps.seq

theorem Acts.seq {P : Params} {env : Env} {accts : List AccMeta} {s s' : State conc} (h : Acts P env accts s s') :
    s.seq ≤ s'.seq := by
  induction h with
  | nil => exact Nat.le_refl _
  | cons hr hn h t ih => exact Nat.le_trans h.seq ih

/-- A transitive relation that every act satisfies holds across every successful instruction. -/
theorem Acts.induct {P : Params} {env : Env} {accts : List AccMeta} {Q : State conc → State conc → Prop}
    (refl : ∀ s, Reach P s → Q s s) (trans : ∀ a b c, Q a b → Q b c → Q a c)
    (act : ∀ a b, Reach P a → NotVault P a.mkt accts → b.seq ≤ W64 → Act P env accts a b → Q a b)
    {s s' : State conc} (h : Acts P env accts s s') (hq : s'.seq ≤ W64) : Q s s' := by
  induction h with
  | nil hr => exact refl _ hr
  | cons hr hn h t ih => exact trans _ _ _ (act _ _ hr hn (Nat.le_trans t.seq hq) h) (ih hq)

/-- The instruction behind a step of a history. -/
theorem step_instr {P : Params} {env : Env} {s s' : State conc} {accts : List AccMeta} {data : List UInt8}
    (h : processRaw conc P env s accts data = .ok s') :
    ∃ ix, Instruction.unpack data = some ix ∧ IxValid ix ∧ process conc P env s accts ix = .ok s' := by
  unfold processRaw at h
  cases hu : Instruction.unpack data with
  | none => rw [hu] at h; simp at h
  | some ix =>
    rw [hu] at h
    obtain ⟨_, _, _, hv, _⟩ := decoding_is_strict _ _ hu
    exact ⟨ix, rfl, hv, h⟩

/-- What each of the four cancelling acts does. -/
theorem cancel_withdrawn {P : Params} {env : Env} {s s' : State conc} {l : List AccMeta} (hr : Reach P s)
    (hq : s.seq ≤ W64)
    (h : (∃ sd id, cancelV2 conc env s l sd id = .ok s') ∨ (∃ c, cancelByClientIdV2 conc env s l c = .ok s') ∨
      (∃ cids, cancelByClientIds conc env s l cids = .ok s')) :
    ∃ oo signer o ls, oo ∈ l ∧ signer ∈ l ∧ signer.signer = true ∧ ooAt s.oos oo.key = some o ∧
      o.owner = signer.key ∧ Withdrawn s s' oo.key ls := by
  rcases h with ⟨sd, id, h⟩ | ⟨c, h⟩ | ⟨cids, h⟩
  · obtain ⟨m, b, k, oo, signer, eq, rest, x, o, rfl, h1, h2, h3, _, h5⟩ := cancel_effect hr hq h
    exact ⟨oo, signer, o, _, by simp, by simp, h1, h2, h3, h5⟩
  · obtain ⟨m, b, k, oo, signer, eq, rest, sd, x, o, rfl, _, h1, h2, h3, _, h5⟩ := cancel_by_id_effect hr hq h
    exact ⟨oo, signer, o, _, by simp, by simp, h1, h2, h3, h5⟩
  · obtain ⟨m, b, k, oo, signer, eq, rest, o, ls, rfl, h1, h2, h3, h5, _⟩ := batch_effect hr hq h
    exact ⟨oo, signer, o, _, by simp, by simp, h1, h2, h3, h5⟩

/-- What disabling requires and does. -/
theorem disable_inv {P : Params} {s s' : State conc} {l : List AccMeta} (h : disableMarket conc P s l = .ok s') :
    ∃ m auth, l = [m, auth] ∧ auth.signer = true ∧ auth.key = P.disableAuth ∧
      loadMarket s.toCore m false = .ok () ∧
      s' = { s with mkt := { s.mkt with flags := s.mkt.flags ||| 128 } } := by
  unfold disableMarket at h
  split at h
  · rename_i m auth
    obtain ⟨_, h1, h⟩ := bind_ok h
    obtain ⟨_, h2, h⟩ := bind_ok h
    obtain ⟨_, h3, h⟩ := bind_ok h
    cases h
    exact ⟨m, auth, rfl, checkAssert_ok.1 h2, by simpa using checkAssert_ok.1 h3, h1, rfl⟩
  · cases h

/-- What opening an account requires and does: nothing if it is open already. -/
theorem init_inv {env : Env} {s s' : State conc} {l : List AccMeta} (h : initOpenOrders conc env s l = .ok s') :
    ∃ oo owner m rent rest, l = oo :: owner :: m :: rent :: rest ∧ owner.signer = true ∧
      loadMarket s.toCore m false = .ok () ∧
      ((s' = s ∧ ∃ o, ooAt s.oos oo.key = some o ∧ o.closed = false ∧ o.owner = owner.key) ∨
       (s' = { s with oos := setOo s.oos oo.key (OpenOrders.init owner.key) } ∧ ooAt s.oos oo.key = none ∧
        env.acct oo.key = .zeroed true ∧
        (∀ k, s.mkt.ooAuth = some k → ∃ a, rest = [a] ∧ a.signer = true ∧ a.key = k))) := by
  unfold initOpenOrders at h
  split at h
  · rename_i oo owner m rent rest
    split at h
    · rename_i hlen
      obtain ⟨au, h1, h⟩ := bind_ok h
      obtain ⟨_, h2, h⟩ := bind_ok h
      obtain ⟨_, h3, h⟩ := bind_ok h
      obtain ⟨o, h4, h⟩ := bind_ok h
      cases h
      refine ⟨oo, owner, m, rent, rest, rfl, checkAssert_ok.1 h2, h3, ?_⟩
      rcases loadOrders_inv h4 with ⟨g1, g2, g3⟩ | ⟨g1, _, _, g4, g5, w, g6, g7⟩
      · left
        simp only [reduceCtorEq, Option.some.injEq, false_or] at g3
        exact ⟨by rw [setOo_same g1], o, g1, g2, g3.symm⟩
      · right
        cases g6
        subst g7
        refine ⟨rfl, g1, g5, fun k hk => ?_⟩
        rw [hk] at g4
        subst g4
        unfold optSigner at h1
        split at h1
        · cases h1
        · rename_i a rest'
          obtain ⟨_, h5, h1⟩ := bind_ok h1
          cases h1
          refine ⟨a, ?_, checkAssert_ok.1 h5, rfl⟩
          cases rest' with
          | nil => rfl
          | cons b r => simp only [List.length_cons] at hlen; omega
    · cases h
  · cases h

end Serum.Props
