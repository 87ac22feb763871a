import Verif.PropsCrankClient
import Verif.PropsChain
import Verif.DemoChain

/-!
C62: the number of events the crank's monitor shows.
-/

namespace Serum.Props
open Crank

variable {P : Params} {n : Nat} {c : Chain}

/-- C62. In every reachable chain, for every market, the monitor answers with the number of events waiting in the queue. -/
theorem monitor_counts (hP : VaultsDiffer P) (h : CReach P n c) (hn : n < 2 ^ 61) {k : Nat} {s : State conc} (hr : Rep c k s)
    (hc : 0 < s.mkt.coinLot) (hp : 0 < s.mkt.pcLot) (hb : 0 < s.q.buf.length) :
    queueLength P k (fun a => (c.accs a).data) = .ok (pending s).length := by
  obtain ⟨M, I⟩ := h.holds hP hn
  obtain ⟨s0, hM, _⟩ := I.found hr.market
  have mi := I.mkts _ _ hM
  have em : s0.mkt = s.mkt := by
    have := mi.rep.market
    rw [hr.market] at this
    exact (Except.ok.inj this).symm
  have eq : s0.q = s.q := by
    have := mi.rep.eventQ
    rw [em, hr.eventQ] at this
    exact (Except.ok.inj this).symm
  have g := mi.reach (by rw [em]; exact hc) (by rw [em]; exact hp)
  have hq : s0.seq ≤ W64 := by
    have := mi.seq
    simp only [W64]
    omega
  have hw := (g.good hq).rs.q.1
  obtain ⟨vs, hv, _⟩ := g.view hq
  have ho : (c.accs k).owned = true := hr.owned k (by unfold Market.own; simp [hr.own])
  have hm := hr.market
  rw [ho] at hm
  rw [em] at hv
  have r1 := crank_reads_market hm hv
  rw [hr.own] at r1
  rw [eq] at hw
  obtain ⟨b, s0', s1', e1, e2, e3⟩ := crank_reads_queue hr.eventQ hw hb
  have el := (iter_owners g hq).2
  unfold queueLength
  rw [r1]
  simp only [bind, Except.bind, e1, e2, pure, Except.pure]
  rw [← List.length_append, e3, ← eq, el]
  unfold pending
  rw [eq]

end Serum.Props

namespace Serum.DemoChain
open Serum Props

/-- After the ask of `two_markets`, 11 cancels it by its client id. -/
def cancelled : State conc :=
  match process conc P (envOf 0 c3) after (Demo.cancelAccts 41 11) (.cancelOrderByClientIdV2 7) with
  | .ok s => s
  | .error _ => s50

/-- Before any order the monitor of market 50 shows 0; after the order and its cancellation 1. -/
theorem monitor_demo : Crank.queueLength P 50 (fun a => (c3.accs a).data) = .ok 0 ∧
    ∃ c, CReach P 16 c ∧ Rep c 50 cancelled ∧ Crank.queueLength P 50 (fun a => (c.accs a).data) = .ok 1 := by
  have hk := keys_small (l := orderAccts) (by decide)
  have hk' := keys_small (l := Demo.cancelAccts 41 11) (by decide)
  have hu : Instruction.unpack order.pack = some order := instruction_round_trip _ (by
    refine ⟨?_, ?_, ?_, ?_, ?_, ?_⟩ <;> decide)
  have hu' : Instruction.unpack (Instruction.cancelOrderByClientIdV2 7).pack = some (.cancelOrderByClientIdV2 7) :=
    instruction_round_trip _ (by decide : U64 7)
  have h := chain_exec differ r3 (by decide) hk.1 hk.2 hu (by constructor <;> intro _ h <;> cases h) rfl reps.1 (fun _ => true) 0
  obtain ⟨c, hc, r⟩ := h.1 _ goes
  have rc : CReach P 15 c := .step r3 (.instr hk.1 hk.2 hc)
  have h' := chain_exec differ rc (by decide) hk'.1 hk'.2 hu' (by constructor <;> intro _ h <;> cases h) rfl r (fun _ => true) 0
  have goes' : process conc P (envOf 0 c) after (Demo.cancelAccts 41 11) (.cancelOrderByClientIdV2 7) = .ok cancelled := by
    have e : process conc P (envOf 0 c) after (Demo.cancelAccts 41 11) (.cancelOrderByClientIdV2 7) =
        process conc P (envOf 0 c3) after (Demo.cancelAccts 41 11) (.cancelOrderByClientIdV2 7) := by
      obtain ⟨o, ho⟩ := Option.isSome_iff_exists.1 after_account
      have hl : ∀ x, loadOrders after.toCore (envOf 0 c) 41 x false none = loadOrders after.toCore (envOf 0 c3) 41 x false none := by
        intro x
        unfold loadOrders
        rw [ho]
      have hp : parseCancel (Demo.cancelAccts 41 11) =
        .ok ⟨Demo.acc 50, Demo.acc 55, Demo.acc 56, Demo.acc 41, Demo.sig 11, Demo.acc 54⟩ := rfl
      show cancelByClientIdV2 conc (envOf 0 c) after _ 7 = cancelByClientIdV2 conc (envOf 0 c3) after _ 7
      unfold cancelByClientIdV2 cancelArgs
      rw [hp]
      have hl' : ∀ x, loadOrders after.toCore (envOf 0 c) (Demo.acc 41).key x false none =
        loadOrders after.toCore (envOf 0 c3) (Demo.acc 41).key x false none := hl
      simp only [bind, Except.bind, hl']
    rw [e]
    have h : (match process conc P (envOf 0 c3) after (Demo.cancelAccts 41 11) (.cancelOrderByClientIdV2 7) with
      | .ok _ => true | .error _ => false) = true := by decide +kernel
    unfold cancelled
    revert h
    cases process conc P (envOf 0 c3) after (Demo.cancelAccts 41 11) (.cancelOrderByClientIdV2 7) with
    | ok s => exact fun _ => rfl
    | error e => exact fun h => by cases h
  obtain ⟨c', hc', r'⟩ := h'.1 _ goes'
  have r' : Rep c' 50 cancelled := r'
  have rc' : CReach P 16 c' := .step rc (.instr hk'.1 hk'.2 hc')
  refine ⟨?_, c', rc', r', ?_⟩
  · rw [monitor_counts differ r3 (by decide) reps.1 (by decide +kernel) (by decide +kernel) (by decide +kernel)]
    exact congrArg Except.ok (by decide +kernel)
  · rw [monitor_counts differ rc' (by decide) r' (by decide +kernel) (by decide +kernel) (by decide +kernel)]
    exact congrArg Except.ok (by decide +kernel)

end Serum.DemoChain
