import Verif.Common
import Verif.PropsSupply
import Verif.Swap

/-!
C124: which cluster a string names. C125: what the client's transactions on tokens do, and that the supply of a token made
with them is what its holders have.
-/

namespace Serum.Props

open Pool Common

/-! ### Spec -/

/-- The text is this but for upper and lower case. -/
def Reads (s t : List Char) : Prop := s.map Char.toLower = t

/-- Somewhere in the text is `http`, in upper or lower case. -/
def MentionsHttp (s : List Char) : Prop := ∃ a b, Reads s (a ++ "http".toList ++ b)

/-- The letter and the word for a cluster. -/
def clusterWords : List (String × String × Cluster) :=
  [("t", "testnet", .testnet), ("m", "mainnet", .mainnet), ("v", "vipmainnet", .vipMainnet), ("d", "devnet", .devnet),
    ("l", "localnet", .localnet), ("g", "debug", .debug)]

/-! ### Clusters -/

theorem hasSub_iff {p s : List Char} : hasSub p s = true ↔ ∃ a b, s = a ++ p ++ b := by
  induction s with
  | nil =>
    simp only [hasSub, List.isEmpty_iff]
    constructor
    · rintro rfl; exact ⟨[], [], rfl⟩
    · rintro ⟨a, b, h⟩
      have := congrArg List.length h
      simp only [List.length_append, List.length_nil] at this
      exact List.eq_nil_of_length_eq_zero (by omega)
  | cons c s ih =>
    simp only [hasSub, Bool.or_eq_true, ih]
    constructor
    · rintro (h | ⟨a, b, rfl⟩)
      · obtain ⟨b, hb⟩ := List.isPrefixOf_iff_prefix.1 h
        exact ⟨[], b, by rw [← hb]; rfl⟩
      · exact ⟨c :: a, b, rfl⟩
    · rintro ⟨a, b, h⟩
      cases a with
      | nil => exact .inl (List.isPrefixOf_iff_prefix.2 ⟨b, h.symm⟩)
      | cons x a =>
        simp only [List.cons_append, List.cons.injEq] at h
        exact .inr ⟨a, b, h.2⟩

theorem mentions_iff {s : List Char} : hasSub http (lower s) = true ↔ MentionsHttp s := hasSub_iff

theorem word_quiet {w : String × String × Cluster} (hw : w ∈ clusterWords) {s : List Char}
    (h : Reads s w.1.toList ∨ Reads s w.2.1.toList) : hasSub http (lower s) = false := by
  have e : lower s = w.1.toList ∨ lower s = w.2.1.toList := h
  have : ∀ w ∈ clusterWords, hasSub http w.1.toList = false ∧ hasSub http w.2.1.toList = false := by decide
  rcases e with e | e <;> rw [e]
  · exact (this w hw).1
  · exact (this w hw).2

/-- C124: a string names a cluster if it has `http` in it, and then it is the address itself, or if it is the letter or the word
for one; upper and lower case make no difference. Every other string is refused. -/
theorem cluster_named {s : List Char} {c : Cluster} :
    Cluster.parse s = some c ↔
      (MentionsHttp s ∧ c = .custom s) ∨ ∃ w ∈ clusterWords, w.2.2 = c ∧ (Reads s w.1.toList ∨ Reads s w.2.1.toList) := by
  by_cases hh : hasSub http (lower s) = true
  · have : Cluster.parse s = some (.custom s) := by simp only [Cluster.parse, hh, if_true]
    rw [this]
    constructor
    · intro h; cases h; exact .inl ⟨mentions_iff.1 hh, rfl⟩
    · rintro (⟨_, rfl⟩ | ⟨w, hw, _, h⟩)
      · rfl
      · rw [word_quiet hw h] at hh; cases hh
  · have hn : ¬ MentionsHttp s := fun h => hh (mentions_iff.2 h)
    have e : Reads s = fun t => lower s = t := rfl
    simp only [hn, false_and, false_or, clusterWords, List.mem_cons, List.not_mem_nil, or_false, exists_eq_or_imp,
      exists_eq_left, e]
    simp only [Cluster.parse, if_neg hh]
    constructor
    · intro h
      split at h
      · rename_i g; cases h; exact .inl ⟨rfl, g⟩
      split at h
      · rename_i g; cases h; exact .inr (.inl ⟨rfl, g⟩)
      split at h
      · rename_i g; cases h; exact .inr (.inr (.inl ⟨rfl, g⟩))
      split at h
      · rename_i g; cases h; exact .inr (.inr (.inr (.inl ⟨rfl, g⟩)))
      split at h
      · rename_i g; cases h; exact .inr (.inr (.inr (.inr (.inl ⟨rfl, g⟩))))
      split at h
      · rename_i g; cases h; exact .inr (.inr (.inr (.inr (.inr ⟨rfl, g⟩))))
      cases h
    · rintro (⟨rfl, g | g⟩ | ⟨rfl, g | g⟩ | ⟨rfl, g | g⟩ | ⟨rfl, g | g⟩ | ⟨rfl, g | g⟩ | ⟨rfl, g | g⟩) <;> rw [g] <;> decide

/-- C124: a cluster read from a string is printed as a string that names it again. -/
theorem cluster_round_trip {s : List Char} {c : Cluster} (h : Cluster.parse s = some c) : Cluster.parse c.display = some c := by
  rcases cluster_named.1 h with ⟨_, rfl⟩ | ⟨w, hw, rfl, _⟩
  · exact h
  · have : ∀ w ∈ clusterWords, Cluster.parse w.2.2.display = some w.2.2 := by decide
    exact this w hw

/-- C124: the client talks to an address with `http` in it, and giving this address instead of the name leads to the same place. -/
theorem cluster_url {s : List Char} {c : Cluster} (h : Cluster.parse s = some c) :
    MentionsHttp c.url ∧ ∃ d, Cluster.parse c.url = some d ∧ d.url = c.url := by
  have key : MentionsHttp c.url := by
    rcases cluster_named.1 h with ⟨h1, rfl⟩ | ⟨w, hw, rfl, _⟩
    · exact h1
    · have : ∀ w ∈ clusterWords, hasSub http (lower w.2.2.url) = true := by decide
      exact mentions_iff.1 (this w hw)
  exact ⟨key, .custom c.url, cluster_named.2 (.inl ⟨key, rfl⟩), rfl⟩

/-- C124: no two of the named clusters share an address. -/
theorem cluster_apart {v w : String × String × Cluster} (hv : v ∈ clusterWords) (hw : w ∈ clusterWords)
    (h : v.2.2.url = w.2.2.url) : v = w := by
  have : ∀ v ∈ clusterWords, ∀ w ∈ clusterWords, v.2.2.url = w.2.2.url → v = w := by decide
  exact this v hv w hw h

/-- A word in capitals, an address, and a slip. -/
example : Cluster.parse "MainNet".toList = some .mainnet ∧ Cluster.parse "HTTP://x".toList = some (.custom "HTTP://x".toList) ∧
    Cluster.parse "httq://x".toList = none := by decide

/-! ### Tokens -/

/-- An empty account. -/
def freshTok (mint owner amount : Nat) : Tok := ⟨mint, owner, amount, false, none, 0, none⟩

/-- C125: a token account is made if and only if there is none yet, empty and for the owner named; nothing else changes. -/
theorem client_create_account {c c' : PoolChain} {payer acct mint owner : Nat} :
    createTokenAccount c payer acct mint owner = some c' ↔
      c.toks acct = none ∧ c' = { c with toks := fun x => if x = acct then some (freshTok mint owner 0) else c.toks x } := by
  simp only [createTokenAccount, tokChain, tokExec]
  cases h : c.toks acct with
  | some t => simp
  | none =>
    simp only [Option.map_some, Option.some.injEq, true_and]
    exact eq_comm

/-- C125: a mint is made if and only if there is none with an authority at its address, with the owner named as its authority. -/
theorem client_create_mint {c c' : PoolChain} {payer mint owner : Nat} :
    createMint c payer mint owner = some c' ↔
      c.minter mint = none ∧ c' = { c with minter := fun x => if x = mint then some owner else c.minter x } := by
  simp only [createMint, tokChain]
  by_cases h : c.minter mint = none
  · simp only [h, if_true, Option.some.injEq, true_and]
    exact eq_comm
  · simp only [h, false_and]
    simp

/-- C125: tokens are minted to a new account if and only if the key is the mint's authority, there is no such account and the
supply stays within 64 bits: the payer owns the account, it holds exactly the quantity, and the supply has grown by that. -/
theorem client_mint {c c' : PoolChain} {payer minter acct mint q : Nat} :
    mintToNewAccount c payer minter acct mint q = some c' ↔
      c.toks acct = none ∧ c.minter mint = some minter ∧ c.supply mint + q < W64 ∧
      c' = { c with
        toks := fun x => if x = acct then some (freshTok mint payer q) else c.toks x
        supply := fun x => if x = mint then c.supply mint + q else c.supply x } := by
  unfold mintToNewAccount
  cases h : c.toks acct with
  | some t => simp [tokChain, tokExec, h]
  | none =>
    simp only [tokChain, tokExec, h, Option.map_some, Option.bind_eq_bind, Option.bind_some, Ledger.put, if_true, true_and]
    by_cases hm : c.minter mint = some minter
    · have hs : signedBy [payer, minter, acct] minter = true := by simp [signedBy]
      simp only [hm, if_true, Option.any_some, hs, Bool.true_and, true_and, decide_eq_true_eq, Nat.zero_add]
      by_cases hq : c.supply mint + q < W64
      · have : q < W64 := by omega
        simp only [hq, this, if_true, Option.map_some, Option.some.injEq, true_and]
        have e : ∀ t u : Tok, (c.toks.put acct (some t)).put acct (some u) = fun x => if x = acct then some u else c.toks x := by
          intro t u
          funext x
          by_cases g : x = acct
          · simp only [Ledger.put, if_pos g]
          · simp only [Ledger.put, if_neg g]
        rw [e]
        exact eq_comm
      · simp only [hq, false_and]
        simp
    · simp only [hm, false_and]
      simp

/-- C125: tokens are minted to an account there is if and only if it is of this token and not frozen, the key is the mint's
authority, and supply and balance stay within 64 bits: both grow by the quantity. -/
theorem client_mint_existing {c c' : PoolChain} {payer minter mint acct q : Nat} :
    mintToExistingAccount c payer minter mint acct q = some c' ↔
      ∃ t, c.toks acct = some t ∧ t.mint = mint ∧ t.frozen = false ∧ c.minter mint = some minter ∧ c.supply mint + q < W64 ∧
        t.amount + q < W64 ∧
        c' = { c with
          toks := fun x => if x = acct then some { t with amount := t.amount + q } else c.toks x
          supply := fun x => if x = mint then c.supply mint + q else c.supply x } := by
  unfold mintToExistingAccount
  cases h : c.toks acct with
  | none => simp
  | some t =>
    simp only [Option.bind_eq_bind, Option.bind_some, Option.some.injEq, exists_eq_left']
    have hs : signedBy [payer, minter] minter = true := by simp [signedBy]
    constructor
    · intro g
      split at g
      · rename_i hm
        obtain ⟨rfl, hm⟩ := hm
        simp only [tokChain, tokExec, h, hm, Option.any_some, hs, Bool.true_and, decide_eq_true_eq] at g
        split at g
        · rename_i h1
          split at g
          · rename_i h2
            cases g
            exact ⟨rfl, h2.1, hm, h1, h2.2, rfl⟩
          · cases g
        · cases g
      · cases g
    · rintro ⟨rfl, h1, hm, h2, h3, rfl⟩
      simp only [hm, and_self, if_true, tokChain, tokExec, h, Option.any_some, hs, Bool.true_and, decide_eq_true_eq, h1, h2, h3,
        Option.map_some]
      rfl

/-- C125: the crank's command makes an account for whoever pays. -/
theorem client_initialize_account {c c' : PoolChain} {acct mint owner : Nat} :
    initializeTokenAccount c acct mint owner = some c' ↔
      c.toks acct = none ∧ c' = { c with toks := fun x => if x = acct then some (freshTok mint owner 0) else c.toks x } :=
  client_create_account (payer := owner)

/-- C125: the owner of an account sends tokens to another if and only if both are of the same token and not frozen, there are
enough, and the sum fits 64 bits: exactly the amount moves. -/
theorem client_transfer {c c' : PoolChain} {src dst n auth payer : Nat} {t : Tok} (hne : src ≠ dst) (ht : c.toks src = some t)
    (ho : t.owner = auth) (hd : t.delegate ≠ some auth) :
    sendTokens c src dst n auth payer = some c' ↔
      ∃ u, c.toks dst = some u ∧ t.frozen = false ∧ u.frozen = false ∧ n ≤ t.amount ∧ t.mint = u.mint ∧ u.amount + n < W64 ∧
        c' = { c with toks := fun x => if x = dst then some { u with amount := u.amount + n }
          else if x = src then some { t with amount := t.amount - n } else c.toks x } := by
  have hs : signedBy [payer, auth] auth = true := by simp [signedBy]
  have hb : debitTok t auth n = .ok { t with amount := t.amount - n } := by
    unfold debitTok
    rw [if_neg hd, if_neg (by simp [ho])]
  simp only [sendTokens, tokChain, tokExec, hs, if_true]
  constructor
  · intro h
    cases e : splTransfer c.toks src dst auth n with
    | error _ => rw [e] at h; cases h
    | ok l =>
      rw [e] at h
      obtain ⟨t1, u, t', h1, h2, h3, h4, h5, h6, h7, h8, rfl⟩ := (spl_iff hne).1 e
      rw [ht] at h1
      cases h1
      rw [hb] at h7
      cases h7
      cases h
      exact ⟨u, h2, h3, h4, h5, h6, h8, rfl⟩
  · rintro ⟨u, h2, h3, h4, h5, h6, h8, rfl⟩
    rw [(spl_iff hne).2 ⟨t, u, _, ht, h2, h3, h4, h5, h6, hb, h8, rfl⟩]
    rfl

/-- A transaction of the client. -/
inductive ClientTx : PoolChain → PoolChain → Prop where
  | account {c c' : PoolChain} {payer acct mint owner : Nat} (h : createTokenAccount c payer acct mint owner = some c') : ClientTx c c'
  | mint {c c' : PoolChain} {payer mint owner : Nat} (h : createMint c payer mint owner = some c') : ClientTx c c'
  | mintTo {c c' : PoolChain} {payer minter acct mint q : Nat} (h : mintToNewAccount c payer minter acct mint q = some c') : ClientTx c c'
  | mintMore {c c' : PoolChain} {payer minter mint acct q : Nat} (h : mintToExistingAccount c payer minter mint acct q = some c') :
    ClientTx c c'
  | wallet {c c' : PoolChain} {acct mint owner : Nat} (h : initializeTokenAccount c acct mint owner = some c') : ClientTx c c'
  | send {c c' : PoolChain} {src dst n auth payer : Nat} (h : sendTokens c src dst n auth payer = some c') : ClientTx c c'

/-- C125: whatever the client does, supplies that are what the holders have stay so. -/
theorem client_held {c c' : PoolChain} (h : ClientTx c c') {mint : Nat} (hs : SupplyHeld c mint) : SupplyHeld c' mint := by
  cases h with
  | account h =>
    obtain ⟨h1, rfl⟩ := client_create_account.1 h
    refine held_put hs rfl ?_
    simp [holding, h1, freshTok]
  | mint h =>
    obtain ⟨_, rfl⟩ := client_create_mint.1 h
    exact hs
  | @mintTo payer minter acct m q h =>
    obtain ⟨h1, _, _, rfl⟩ := client_mint.1 h
    refine held_put hs (a := acct) rfl ?_
    simp only [holding, h1, freshTok, if_true]
    by_cases e : m = mint
    · subst e; simp only [if_true]; omega
    · simp only [if_neg e, if_neg (Ne.symm e)]
  | @mintMore payer minter m acct q h =>
    obtain ⟨t, h1, h2, _, _, _, _, rfl⟩ := client_mint_existing.1 h
    refine held_put hs (a := acct) rfl ?_
    simp only [holding, h1, if_true, h2]
    by_cases e : m = mint
    · subst e; simp only [if_true]; omega
    · simp only [if_neg e, if_neg (Ne.symm e)]
  | wallet h =>
    obtain ⟨h1, rfl⟩ := client_initialize_account.1 h
    refine held_put hs rfl ?_
    simp [holding, h1, freshTok]
  | @send src dst n auth payer h =>
    simp only [sendTokens, tokChain, tokExec] at h
    split at h
    · cases hd : splTransfer c.toks src dst auth n with
      | error _ => rw [hd] at h; cases h
      | ok l =>
        rw [hd] at h
        cases h
        exact hs.matched (carried_matched (transfer_carried (may := fun _ => True) trivial hd))
    · cases h

/-- What happens on a chain with pools after a token was made: anything but the closing of accounts that hold the token. -/
inductive TokenLife (E : PoolEnv) (k : PoolKind) (mint : Nat) (c : PoolChain) : PoolChain → Prop where
  | born : TokenLife E k mint c c
  | client {c' c'' : PoolChain} (h : TokenLife E k mint c c') (hx : ClientTx c' c'') : TokenLife E k mint c c''
  | chain {c' c'' : PoolChain} (h : TokenLife E k mint c c') (hx : PStep E k c' c'') (ho : KeepsHolders mint c' c'') :
    TokenLife E k mint c c''

/-- C125: the supply of a token made by the client is at any time what all accounts hold of it together. -/
theorem token_life {E : PoolEnv} {k : PoolKind} {c c1 c2 : PoolChain} {payer mint owner : Nat} (h0 : c.supply mint = 0)
    (hn : ∀ a t, c.toks a = some t → t.mint = mint → t.amount = 0) (h1 : createMint c payer mint owner = some c1)
    (h2 : TokenLife E k mint c1 c2) {L : List Nat} (hL : L.Nodup)
    (hc : ∀ a t, c2.toks a = some t → t.mint = mint → t.amount ≠ 0 → a ∈ L) :
    (L.map (holding c2.toks mint)).sum = c2.supply mint := by
  have s0 : SupplyHeld c mint := by
    refine ⟨[], List.nodup_nil, fun a ha => absurd ?_ ha, by rw [h0]; rfl⟩
    unfold holding
    cases e : c.toks a with
    | none => rfl
    | some t =>
      by_cases g : t.mint = mint
      · simp only [if_pos g, hn a t e g]
      · simp only [if_neg g]
  have s2 : SupplyHeld c2 mint := by
    clear hc
    induction h2 with
    | born => exact client_held (.mint h1) s0
    | client _ hx ih => exact client_held hx ih
    | chain _ hx ho ih => exact step_held hx ho ih
  refine s2.all hL fun a ha => ?_
  unfold holding at ha
  cases e : c2.toks a with
  | none => rw [e] at ha; exact absurd rfl ha
  | some t =>
    rw [e] at ha
    simp only at ha
    by_cases g : t.mint = mint
    · rw [if_pos g] at ha; exact hc a t e g ha
    · rw [if_neg g] at ha; exact absurd rfl ha

namespace CommonDemo

/-- A chain without tokens. -/
def c0 : PoolChain := ⟨fun _ => ⟨false, true, []⟩, fun _ => none, fun _ => 0, fun _ => none⟩
def c1 : PoolChain := (createMint c0 5 7 9).getD c0
def c2 : PoolChain := (mintToNewAccount c1 5 9 30 7 500).getD c0
def c3 : PoolChain := (createTokenAccount c2 5 31 7 6).getD c0
def c4 : PoolChain := (sendTokens c3 30 31 120 5 5).getD c0

theorem made1 : createMint c0 5 7 9 = some c1 := rfl
theorem made2 : mintToNewAccount c1 5 9 30 7 500 = some c2 := rfl
theorem made3 : createTokenAccount c2 5 31 7 6 = some c3 := rfl
theorem made4 : sendTokens c3 30 31 120 5 5 = some c4 := rfl

/-- A mint is made, 500 tokens are minted, 120 of them sent to a second account; the wrong key cannot mint. -/
example : c0.supply 7 = 0 ∧ TokenLife PoolsDemo.E .simple 7 c1 c4 ∧ c4.supply 7 = 500 ∧
    holding c4.toks 7 30 = 380 ∧ holding c4.toks 7 31 = 120 ∧ ([30, 31].map (holding c4.toks 7)).sum = c4.supply 7 ∧
    mintToNewAccount c4 5 5 32 7 1 = none ∧
    (mintToExistingAccount c4 5 9 7 31 1).map (fun c => (c.supply 7, holding c.toks 7 31)) = some (501, 121) := by
  have life : TokenLife PoolsDemo.E .simple 7 c1 c4 :=
    .client (.client (.client .born (.mintTo made2)) (.account made3)) (.send made4)
  refine ⟨rfl, life, rfl, rfl, rfl, token_life (c := c0) rfl (fun a t h => by cases h) made1 life (by decide) fun a t h _ _ => ?_, rfl, rfl⟩
  by_cases e : a = 30
  · simp [e]
  by_cases g : a = 31
  · simp [g]
  · have : c4.toks a = none := by
      have : c4.toks a = if a = 31 then some (freshTok 7 6 120) else if a = 30 then some (freshTok 7 5 380) else c3.toks a := rfl
      rw [this, if_neg e, if_neg g]
      have : c3.toks a = if a = 31 then some (freshTok 7 6 0) else c2.toks a := rfl
      rw [this, if_neg g]
      have : c2.toks a = if a = 30 then some (freshTok 7 5 500) else if a = 30 then some (freshTok 7 5 0) else none := rfl
      rw [this, if_neg e, if_neg e]
    rw [this] at h
    cases h

end CommonDemo

end Serum.Props
