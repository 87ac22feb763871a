import Verif.Session
import Verif.PropsChainExit
import Verif.PropsCan
import Verif.PropsPlace
import Verif.PropsClient
import Verif.DemoChain

/-!
C112: a customer with the command line client, on the bytes of the chain.
-/

namespace Serum.Props

open Crank (TxIx Unused withNew runIx runTx MarketKeys)

variable {P : Params} {n : Nat} {c c' : Chain}

/-- Creating an account is a step of the chain. -/
theorem withNew_step (P : Params) {a len : Nat} (h : Unused c a) (hl : len ≤ maxLen) : CStep P c (withNew c a len) :=
  .alter (.other (.inl h.2.1) (fun _ => ⟨len, rfl⟩) (by show (zeros len).length ≤ _; rw [zeros_length]; exact hl)) fun e => absurd e h.1

/-- A new account changes no market. -/
theorem withNew_rep {k a len : Nat} {s : State conc} (hr : Rep c k s) (h : Unused c a) : Rep (withNew c a len) k s := by
  have hx : ∀ x, (c.accs x).owned = true → (withNew c a len).accs x = c.accs x := fun x hx => by
    have : x ≠ a := fun e => by rw [e, h.2.1] at hx; cases hx
    show (if x = a then _ else _) = _
    rw [if_neg this]
  have own : ∀ x ∈ s.mkt.own, (withNew c a len).accs x = c.accs x := fun x hm => hx x (hr.owned x hm)
  have hk : (withNew c a len).accs k = c.accs k := own k (by rw [← hr.own]; simp [Market.own])
  obtain ⟨j, hj⟩ := hr.reqQ
  refine ⟨?_, hr.own, ⟨j, ?_⟩, ?_, ?_, fun e => ?_, hr.same, fun x hm => by rw [own x hm]; exact hr.owned x hm, fun x => ?_, hr.toks⟩
  · rw [hk]; exact hr.market
  · rw [own s.mkt.reqQ (by simp [Market.own])]; exact hj
  · rw [own s.mkt.eventQ (by simp [Market.own])]; exact hr.eventQ
  · rw [own s.mkt.asks (by simp [Market.own])]; exact hr.asks
  · rw [own s.mkt.bids (by simp [Market.own])]; exact hr.bids e
  · rw [hr.oos]
    by_cases e : x = a
    · subst e
      rw [ooOf_unowned h.2.1]
      symm
      have : (withNew c x len).accs x = ⟨true, true, zeros len⟩ := by show (if x = x then _ else _) = _; rw [if_pos rfl]
      rw [this]
      apply ooOf_none_word <;> rw [flagsWord_zeros] <;> omega
    · show _ = ooOf k (if x = a then _ else _)
      rw [if_neg e]

theorem withNew_env (now : Int) (a len : Nat) (e : Bool) :
    (envOf now (withNew c a len)).acct a = .zeroed e ↔ len = 3228 ∧ e = true := by
  show acctKind (if a = a then _ else _) = _ ↔ _
  rw [if_pos rfl]
  unfold acctKind
  constructor
  · intro h
    split at h
    · rename_i hc
      simp only [Bool.true_and, beq_iff_eq] at hc
      have := congrArg List.length hc
      rw [zeros_length, zeros_length] at this
      cases h
      exact ⟨this, rfl⟩
    · cases h
  · rintro ⟨rfl, rfl⟩
    simp

/-- The addresses a transaction of the client involves. -/
def Addresses (l : List Nat) : Prop := ∀ a ∈ l, a < 256 ^ 32

/-- Nobody who signs is the vault signer of a market. -/
def People (P : Params) (sg : Nat → Bool) : Prop := ∀ a, sg a = true → ∀ k n, P.vaultSigner k n ≠ some a

/-- The two instructions of `init_open_orders` for a new account, for whatever size and authority. -/
def openTx (prog rent owner market fresh len : Nat) (auth : Option Nat) : List TxIx :=
  [.create fresh len, .call (Client.initOpenOrders rent prog fresh owner market auth)]

/-- The authority over accounts agrees, if the market has one; otherwise none must be named. -/
def Agreed (m : Market) (sg : Nat → Bool) (auth : Option Nat) : Prop :=
  if m.flags.testBit 9 then ∃ k, auth = some k ∧ k = m.ooAuthority ∧ sg k = true else auth = none

/-- C112. When an account can be opened: exactly if the address is unused and signs, the account is made 3228 bytes long, the owner
signs, the market is enabled, and its authority over accounts signs if it has one. -/
theorem open_tx_iff (hP : VaultsDiffer P) (h : CReach P n c) (hn : n + 2 < 2 ^ 61) {k : Nat} {m : Market}
    (hm : IsMarket c k m) (hl : 0 < m.coinLot ∧ 0 < m.pcLot) {fresh owner rent len : Nat} {auth : Option Nat} (hlen : len ≤ maxLen)
    (ha : Addresses ([fresh, owner, k, rent] ++ auth.toList)) {sg : Nat → Bool}
    (hs : People P sg) (hau : ∀ x, auth = some x → sg x = true) (prog : Nat) (mints : Nat → Bool) (now : Int) :
    (∃ c', runTx P mints now sg c (openTx prog rent owner k fresh len auth) = .ok c') ↔
      Unused c fresh ∧ sg fresh = true ∧ len = 3228 ∧ sg owner = true ∧ ¬ Disabled m ∧ Agreed m sg auth := by
  obtain ⟨s, hr, hsm, _, hrs⟩ := chain_markets hP h (by omega) hm
  have hrs := hrs hl.1 hl.2
  let C : _root_.Serum.Call := Client.initOpenOrders rent prog fresh owner k auth
  have hC : C.accts sg = ⟨fresh, sg fresh⟩ :: ⟨owner, sg owner⟩ :: ⟨k, sg k⟩ :: ⟨rent, sg rent⟩ :: auth.toList.map fun x => ⟨x, sg x⟩ := by
    cases auth <;> rfl
  have hu : Instruction.unpack C.data = some .initOpenOrders := instruction_round_trip .initOpenOrders trivial
  have hfm : ForMarket .initOpenOrders := ⟨fun _ h => (by cases h), fun _ h => (by cases h)⟩
  have hmk : marketAt .initOpenOrders (C.accts sg) = some k := by rw [hC]; rfl
  have hka : ∀ a ∈ C.accts sg, a.key < 256 ^ 32 := by
    intro a hm
    refine ha a.key ?_
    rw [hC] at hm
    simp only [List.mem_cons, List.mem_map] at hm
    rcases hm with rfl | rfl | rfl | rfl | ⟨x, hx, rfl⟩ <;> simp_all
  have hsa : ∀ a ∈ C.accts sg, a.signer = true → ∀ k n, P.vaultSigner k n ≠ some a.key := by
    intro a hm hsig
    obtain ⟨x, _, rfl⟩ := List.mem_map.1 hm
    exact hs x.key hsig
  have vouched : Vouched m (auth.toList.map fun x => ⟨x, sg x⟩) ↔ Agreed m sg auth := by
    unfold Vouched Agreed
    split
    · cases auth with
      | none => simp
      | some x =>
        constructor
        · rintro ⟨a, e, g1, g2⟩
          cases e
          exact ⟨x, rfl, g2, g1⟩
        · rintro ⟨y, e, g1, g2⟩
          cases e
          exact ⟨_, rfl, g2, g1⟩
    · cases auth <;> simp
  have hex : Unused c fresh → ((∃ c', execBytes P mints now (withNew c fresh len) (C.accts sg) C.data = .ok c') ↔
      len = 3228 ∧ sg owner = true ∧ ¬ Disabled m ∧ Agreed m sg auth) := by
    intro hf
    have hc1 : CReach P (n + 1) (withNew c fresh len) := h.step (withNew_step P hf hlen)
    have hr1 := withNew_rep (len := len) hr hf
    have hnone : ooAt s.oos fresh = none := by rw [hr.oos]; exact ooOf_unowned hf.2.1
    have key := chain_exec hP hc1 (by omega) hka hsa hu hfm hmk hr1 mints now
    have hi := fun s' => open_iff (s' := s') hrs (envOf now (withNew c fresh len)) (C.accts sg)
    constructor
    · rintro ⟨c', hx⟩
      cases hp : process conc P (envOf now (withNew c fresh len)) s (C.accts sg) .initOpenOrders with
      | error e => rw [key.2 e hp] at hx; cases hx
      | ok s' =>
        simp only [process] at hp
        obtain ⟨oo, ow, mm, rr, rest, e, _, _, g1, _, g2, g3⟩ := (hi s').1 hp
        rw [hC] at e
        simp only [List.cons.injEq] at e
        obtain ⟨rfl, rfl, rfl, rfl, rfl⟩ := e
        rw [hsm] at g2
        rcases g3 with ⟨o, g4, _⟩ | ⟨_, _, g4, g5, _⟩
        · rw [hnone] at g4; cases g4
        · rw [hsm] at g5
          exact ⟨((withNew_env _ _ _ _).1 g4).1, g1, g2, vouched.1 g5⟩
    · rintro ⟨rfl, g1, g2, g3⟩
      have hp : initOpenOrders conc (envOf now (withNew c fresh 3228)) s (C.accts sg) =
          .ok { s with oos := setOo s.oos fresh (OpenOrders.init owner) } := by
        refine (hi _).2 ⟨⟨fresh, sg fresh⟩, ⟨owner, sg owner⟩, ⟨k, sg k⟩, ⟨rent, sg rent⟩, _, hC, by cases auth <;> simp, ?_, g1,
          hr.own.symm, hsm ▸ g2, .inr ⟨hnone, hf.1, (withNew_env _ _ _ _).2 ⟨rfl, rfl⟩, by rw [hsm]; exact vouched.2 g3, rfl⟩⟩
        intro a hm
        obtain ⟨x, hx, rfl⟩ := List.mem_map.1 hm
        exact hau x (by simpa using hx)
      obtain ⟨c2, hx, _⟩ := key.1 _ (by simp only [process]; exact hp)
      exact ⟨c2, hx⟩
  have hrun : ∀ c', runTx P mints now sg c (openTx prog rent owner k fresh len auth) = .ok c' ↔
      (Unused c fresh ∧ sg fresh = true) ∧ execBytes P mints now (withNew c fresh len) (C.accts sg) C.data = .ok c' := by
    intro c'
    show (runIx P mints now sg c (.create fresh len) >>= fun c' => runIx P mints now sg c' (.call C) >>= fun c' => .ok c') = _ ↔ _
    unfold runIx
    simp only [bind, Except.bind]
    by_cases hc : Unused c fresh ∧ sg fresh = true
    · rw [if_pos hc]
      simp only [hc.1, hc.2, true_and]
      cases execBytes P mints now (withNew c fresh len) (C.accts sg) C.data <;> simp
    · rw [if_neg hc]
      constructor
      · intro h; cases h
      · intro h; exact absurd h.1 hc
  constructor
  · rintro ⟨c', hx⟩
    obtain ⟨⟨g1, g2⟩, g3⟩ := (hrun c').1 hx
    exact ⟨g1, g2, (hex g1).1 ⟨c', g3⟩⟩
  · rintro ⟨g1, g2, g3⟩
    obtain ⟨c', g4⟩ := (hex g1).2 g3
    exact ⟨c', (hrun c').2 ⟨⟨g1, g2⟩, g4⟩⟩

/-- C112. `init_open_orders` without an account: on every reachable chain, for every enabled market without an authority over
accounts and every unused address, the transaction succeeds. Afterwards there is an open account of that market at that address,
empty and the owner's; nothing else on the chain has changed. -/
theorem session_open (hP : VaultsDiffer P) (h : CReach P n c) (hn : n + 2 < 2 ^ 61) {keys : MarketKeys} {m : Market}
    (hm : IsMarket c keys.market m) (hl : 0 < m.coinLot ∧ 0 < m.pcLot) (hen : ¬ Disabled m) (hp : m.flags.testBit 9 = false)
    {fresh owner rent : Nat} (hf : Unused c fresh) (ha : Addresses [fresh, owner, keys.market, rent]) {sg : Nat → Bool}
    (hs : People P sg) (h1 : sg owner = true) (h2 : sg fresh = true) (prog : Nat) (mints : Nat → Bool) (now : Int) :
    ∃ c', runTx P mints now sg c (Crank.initOpenOrdersTx prog rent owner keys none fresh) = .ok c' ∧ CReach P (n + 2) c' ∧
      ooOf keys.market (c'.accs fresh) = some (OpenOrders.init owner) ∧ (∀ x, x ≠ fresh → c'.accs x = c.accs x) ∧
      c'.toks = c.toks := by
  obtain ⟨s, hr, hsm, _, hrs⟩ := chain_markets hP h (by omega) hm
  have hrs := hrs hl.1 hl.2
  have hc1 : CReach P (n + 1) (withNew c fresh 3228) := h.step (withNew_step P hf (by decide))
  have hr1 := withNew_rep (len := 3228) hr hf
  have hnone : ooAt s.oos fresh = none := by rw [hr.oos]; exact ooOf_unowned hf.2.1
  let C : _root_.Serum.Call := Client.initOpenOrders rent prog fresh owner keys.market none
  have hproc : process conc P (envOf now (withNew c fresh 3228)) s (C.accts sg) .initOpenOrders =
      .ok { s with oos := setOo s.oos fresh (OpenOrders.init owner) } := by
    simp only [process]
    refine (open_iff hrs _ _).2 ⟨⟨fresh, sg fresh⟩, ⟨owner, sg owner⟩, ⟨keys.market, sg keys.market⟩, ⟨rent, sg rent⟩, [], rfl, by simp,
      by simp, h1, hr.own.symm, hsm ▸ hen, .inr ⟨hnone, hf.1, (withNew_env _ _ _ _).2 ⟨rfl, rfl⟩, ?_, rfl⟩⟩
    unfold Vouched
    rw [hsm, hp]
    rfl
  have hu : Instruction.unpack C.data = some .initOpenOrders := instruction_round_trip .initOpenOrders trivial
  have hfm : ForMarket .initOpenOrders := ⟨fun _ h => (by cases h), fun _ h => (by cases h)⟩
  have hka : ∀ a ∈ C.accts sg, a.key < 256 ^ 32 := by
    intro a hm
    refine ha a.key ?_
    obtain ⟨x, hx, rfl⟩ := List.mem_map.1 hm
    have hx : x ∈ [wr fresh, roSig owner, ro keys.market, ro rent] := hx
    simp only [List.mem_cons, List.not_mem_nil, or_false] at hx ⊢
    rcases hx with rfl | rfl | rfl | rfl <;> simp [wr, roSig, ro]
  have hsa : ∀ a ∈ C.accts sg, a.signer = true → ∀ k n, P.vaultSigner k n ≠ some a.key := by
    intro a hm hsig
    obtain ⟨x, _, rfl⟩ := List.mem_map.1 hm
    exact hs x.key hsig
  have hmk : marketAt .initOpenOrders (C.accts sg) = some keys.market := rfl
  obtain ⟨c2, hx, hr2⟩ := (chain_exec hP hc1 (by omega) hka hsa hu hfm hmk hr1 mints now).1 _ hproc
  have hrun : runTx P mints now sg c (Crank.initOpenOrdersTx prog rent owner keys none fresh) = .ok c2 := by
    show (runIx P mints now sg c (.create fresh 3228) >>= fun c' => runIx P mints now sg c' (.call C) >>= fun c' => .ok c') = _
    unfold runIx
    simp only [bind, Except.bind]
    rw [if_pos ⟨hf, h2⟩]
    simp only []
    rw [hx]
  refine ⟨c2, hrun, hc1.step (.instr hka hsa hx), ?_, ?_, ?_⟩
  · rw [← hr2.oos]
    show ooAt (setOo s.oos fresh _) fresh = _
    rw [ooAt_setOo_same]
  · intro x hxf
    rw [exec_eq hu hfm hmk] at hx
    obtain ⟨t, ht, hx⟩ := bind_ok hx
    obtain ⟨t', ht', hx⟩ := bind_ok hx
    have hx : storeState (withNew c fresh 3228) keys.market t t' _ = c2 := Except.ok.inj hx
    have e0 : (withNew c fresh 3228).accs x = c.accs x := by show (if x = fresh then _ else _) = _; rw [if_neg hxf]
    simp only [process] at ht'
    obtain ⟨oo, ow, _, _, _, e, _, _, hor⟩ := init_inv ht'
    have hoo : oo.key = fresh := by
      have := congrArg (fun l => (l.head?).map AccMeta.key) e
      exact (Option.some.inj this).symm
    have key : t'.mkt = t.mkt ∧ t'.seq = t.seq ∧ t'.q = t.q ∧ t'.asks = t.asks ∧ t'.bids = t.bids ∧ ooAt t'.oos x = ooAt t.oos x := by
      rcases hor with ⟨rfl, _⟩ | ⟨rfl, _⟩
      · exact ⟨rfl, rfl, rfl, rfl, rfl, rfl⟩
      · exact ⟨rfl, rfl, rfl, rfl, rfl, by rw [show ooAt (setOo t.oos oo.key _) x = _ from ooAt_setOo .., if_neg (by rw [hoo]; exact hxf)]⟩
    obtain ⟨k1, k2, k3, k4, k5, k6⟩ := key
    rw [← hx]
    unfold storeState
    simp only [e0]
    have : putData keys.market t t' ((C.accts sg).map (·.key)) x (c.accs x).data = (c.accs x).data := by
      unfold putData
      rw [if_pos k1, if_pos k2, if_pos k3, if_pos k4, if_pos k5, k6]
      repeat' split
      all_goals first | rfl | (rename_i hne; exact absurd ‹_› hne)
    rw [this]
  · rw [← hr2.toks]
    exact hr.toks

/-- C112. `place_order` without an account: if an order could be placed from a fresh account (C65), the transaction that creates the
account and places the order succeeds, with the effect of the order on the market. -/
theorem session_place (hP : VaultsDiffer P) (h : CReach P n c) (hn : n + 2 < 2 ^ 61) {keys : MarketKeys} {s : State conc}
    (hr : Rep c keys.market s) (hrs : Reach P s) (hq : s.seq < W64) {fresh payer wallet rent : Nat} {ix : NewOrderIx}
    (hf : Unused c fresh) (hv : OrderValid ix) {sg : Nat → Bool} (hs : People P sg) (h2 : sg fresh = true) (prog : Nat)
    (mints : Nat → Bool) (now : Int)
    (ha : ∀ a ∈ (Crank.placeOrder P prog rent wallet payer fresh keys ix).accts sg, a.key < 256 ^ 32)
    (hc : CanPlace P (envOf now (withNew c fresh 3228)) s ((Crank.placeOrder P prog rent wallet payer fresh keys ix).accts sg) ix
      fresh wallet payer rent [] (OpenOrders.init payer)) :
    ∃ c' s', runTx P mints now sg c (Crank.placeOrderTx P prog rent wallet payer keys none fresh ix) = .ok c' ∧
      CReach P (n + 2) c' ∧ Rep c' keys.market s' ∧ (∃ o', ooOf keys.market (c'.accs fresh) = some o' ∧ o'.owner = payer) ∧
      ∃ a tier o' slot ts f evs, a.oo.key = fresh ∧
        PlaceEffect P (envOf now (withNew c fresh 3228)) s s' ((Crank.placeOrder P prog rent wallet payer fresh keys ix).accts sg) ix a
          tier (OpenOrders.init payer) o' slot (stillDue s (OpenOrders.init payer) ix) ts f evs := by
  let C : _root_.Serum.Call := Crank.placeOrder P prog rent wallet payer fresh keys ix
  have hc1 : CReach P (n + 1) (withNew c fresh 3228) := h.step (withNew_step P hf (by decide))
  have hr1 := withNew_rep (len := 3228) hr hf
  have hsa : ∀ a ∈ C.accts sg, a.signer = true → ∀ k n, P.vaultSigner k n ≠ some a.key := by
    intro a hm hsig
    obtain ⟨x, _, rfl⟩ := List.mem_map.1 hm
    exact hs x.key hsig
  have hiv : IxValid (.newOrderV3 ix) := hv
  have hu : Instruction.unpack C.data = some (.newOrderV3 ix) := instruction_round_trip (.newOrderV3 ix) hiv
  have hfm : ForMarket (.newOrderV3 ix) := ⟨fun _ h => (by cases h), fun _ h => (by cases h)⟩
  have hmk : marketAt (.newOrderV3 ix) (C.accts sg) = some keys.market := rfl
  obtain ⟨s', hp, a, tier, o', slot, ts, f, evs, e1, e2⟩ := place_works hrs hq hv (fun x hx hsig => hsa x hx hsig _ _) hc
  have hp' : process conc P (envOf now (withNew c fresh 3228)) s (C.accts sg) (.newOrderV3 ix) = .ok s' := by
    unfold processRaw at hp
    rw [instruction_round_trip (.newOrderV3 ix) hiv] at hp
    exact hp
  obtain ⟨c2, hx, hr2⟩ := (chain_exec hP hc1 (by omega) ha hsa hu hfm hmk hr1 mints now).1 _ hp'
  refine ⟨c2, s', ?_, hc1.step (.instr ha hsa hx), hr2, ?_, a, tier, o', slot, ts, f, evs, e1, e2⟩
  · show (runIx P mints now sg c (.create fresh 3228) >>= fun c' => runIx P mints now sg c' (.call C) >>= fun c' => .ok c') = _
    unfold runIx
    simp only [bind, Except.bind]
    rw [if_pos ⟨hf, h2⟩]
    simp only []
    rw [hx]
  · exact ⟨o', by rw [← hr2.oos, ← e1]; exact e2.account, e2.owner.1⟩

/-- C112. The other commands are single instructions of the program's own builders, for the accounts of the market. -/
theorem session_commands (P : Params) (prog rent wallet owner oo coinWallet pcWallet cid : Nat) (ids : List Nat) (keys : MarketKeys)
    (ix : NewOrderIx) :
    Crank.placeOrderTx P prog rent wallet owner keys (some oo) 0 ix = [.call (Client.newOrder keys.market oo keys.reqQ keys.eventQ
      keys.bids keys.asks wallet owner keys.coinVault keys.pcVault P.splToken rent none prog ix)] ∧
    Crank.initOpenOrdersTx prog rent owner keys (some oo) 0 = [.call (Client.initOpenOrders rent prog oo owner keys.market none)] ∧
    Crank.initOpenOrdersTx prog rent owner keys none oo = openTx prog rent owner keys.market oo 3228 none ∧
    Crank.cancelOrderTx prog owner oo keys cid =
      [.call (Client.cancelOrderByClientId prog keys.market keys.bids keys.asks oo owner keys.eventQ cid)] ∧
    Crank.cancelOrdersTx prog owner oo keys ids =
      [.call (Client.cancelOrdersByClientIds prog keys.market keys.bids keys.asks oo owner keys.eventQ ids)] ∧
    Crank.settleFundsTx P prog owner oo coinWallet pcWallet keys = [.call (Client.settleFunds prog keys.market P.splToken oo owner
      keys.coinVault coinWallet keys.pcVault pcWallet none keys.vaultSigner)] ∧
    Crank.closeOpenOrdersTx prog owner oo keys = [.call (Client.closeOpenOrders prog oo owner owner keys.market)] :=
  ⟨rfl, rfl, rfl, rfl, rfl, rfl, rfl⟩

end Serum.Props

namespace Serum.DemoChain

open Serum.Props Crank

/-- Trader 11 uses the new address 43 on market 50. -/
def visitor (k : Nat) : Bool := k == 11 || k == 43
def keys50 : MarketKeys := ⟨50, 53, 54, 55, 56, 51, 52, 1050⟩

theorem visitor_people : People P visitor := by
  intro a ha k n
  have : a < 1000 := by
    unfold visitor at ha
    simp only [Bool.or_eq_true, beq_iff_eq] at ha
    omega
  exact no_signer k n this

theorem opens : ∃ c', runTx P (fun _ => true) 0 visitor c3 (initOpenOrdersTx 1 0 11 keys50 none 43) = .ok c' ∧ CReach P 16 c' ∧
    ooOf 50 (c'.accs 43) = some (OpenOrders.init 11) ∧ (∀ x, x ≠ 43 → c'.accs x = c3.accs x) ∧ c'.toks = c3.toks :=
  session_open (keys := keys50) (m := s50.mkt) differ r3 (by decide) reps.1.market (by decide +kernel)
    (by unfold Disabled; decide +kernel) (by decide +kernel) (by decide +kernel) (by unfold Addresses; decide) visitor_people rfl rfl 1 (fun _ => true) 0

/-- They ask 5 lots at 1000 without opening the account first. -/
def asks5 : NewOrderIx := { Demo.order .ask 1000 5 100000 7 with limit := 10 }

theorem places : ∃ c' s', runTx P (fun _ => true) 0 visitor c3 (placeOrderTx P 1 0 21 11 keys50 none 43 asks5) = .ok c' ∧
    CReach P 16 c' ∧ Rep c' 50 s' ∧ (∃ o', ooOf 50 (c'.accs 43) = some o' ∧ o'.owner = 11) := by
  obtain ⟨c', s', h1, h2, h3, h4, _⟩ := session_place (P := P) (keys := keys50) (ix := asks5) (wallet := 21) (payer := 11) (rent := 0)
    (fresh := 43) (sg := visitor) differ r3 (by decide) reps.1 (minvs.1.reach (by decide +kernel) (by decide +kernel)) (by decide +kernel)
    (by decide +kernel) (by unfold OrderValid; decide) visitor_people rfl 1 (fun _ => true) 0 (by decide +kernel)
    ⟨by decide +kernel, by decide +kernel, by decide +kernel, by decide +kernel, .inr (by decide +kernel), .inl rfl, .inl rfl,
      ⟨0, by decide +kernel⟩, ⟨Demo.tok 80 11 100000, by decide +kernel⟩, by decide +kernel, ⟨Demo.tok 80 1050 0, by decide +kernel⟩,
      by show s50.asks.nodes ≠ []; decide +kernel, fun h => (by cases h), fun tier => by cases tier <;> decide +kernel,
      by show baseHeld s50 43 (OpenOrders.init 11) + stillDue s50 (OpenOrders.init 11) asks5 < 2 ^ 64 ∧
          quoteHeld s50 43 (OpenOrders.init 11) + s50.mkt.pcDeposits < 2 ^ 64 ∧ asks5.maxCoinQty * s50.mkt.coinLot < 2 ^ 64
         decide +kernel⟩
  exact ⟨c', s', h1, h2, h3, h4⟩

/-- The bid `whole_shebang` calls successful (`lib.rs` 874-895), on a market with the lot sizes it lists: 500000 do not pay for one
lot of 500 * 10000. The order is taken, but nothing rests on the book and the deposit stays free (F39). -/
def shebang : State conc :=
  emptyState (fun a => if a = 31 then some (Demo.tok 81 11 1000000000000000) else toks a) (newMarket ⟨1000000, 10000, 0, 0, 100⟩ g1) 201 201 128
def shebangBid : NewOrderIx := { Demo.order .bid 500 1000 500000 19269 with limit := 65535 }
def shebangAccts : List AccMeta :=
  [Demo.acc 50, Demo.acc 41, Demo.acc 53, Demo.acc 54, Demo.acc 55, Demo.acc 56, Demo.acc 31, Demo.sig 11, Demo.acc 51, Demo.acc 52,
   Demo.acc 73, Demo.acc 0]

example : (match process conc P (envOf 0 c3) shebang shebangAccts (.newOrderV3 shebangBid) with
    | .ok s => decide (resting s .bid = [] ∧ (pending s).length = 1 ∧ bal s.toks 31 + 500000 = bal shebang.toks 31 ∧
        (ooAt s.oos 41).map OpenOrders.pcFree = some 500000)
    | .error _ => false) = true := by decide +kernel

end Serum.DemoChain
