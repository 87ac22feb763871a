# Formal model of project-serum/serum-dex

The source is `/repo` (Rust). Nothing there is built or run; the model was written by reading it.
Every Lean definition of the model cites the file and lines it follows and states its simplifications.

## 1. Approach

Function-by-function executable model in Lean 4, under `lean/Verif/`.

Model (definitions only, following the code):

| module | code modelled |
|---|---|
| `Arith` | wrapping / checked `u64`, `u128` arithmetic |
| `Fees` | `dex/src/fees.rs` |
| `Queue` | ring buffer, `dex/src/state.rs` 763-869 |
| `OrderId` | `gen_order_id`, `state.rs` 905-921; `matching.rs` 61 |
| `Codec` | request / event flag codecs, `state.rs` 923-1347 |
| `Instr` | instruction encode/decode, `dex/src/instruction.rs` |
| `Slab` | array level crit-bit tree with free list, `dex/src/critbit.rs` |
| `OpenOrders` | slot bitmaps and balances, `state.rs` 587-749 |
| `Impl`, `Matching` | matching engine, `dex/src/matching.rs`, written once for any book and queue implementation |
| `Processor` | loading, account parsing, instruction processing, SPL transfers, `state.rs` 91-198, 502-575, 1611-3465 |
| `Layout` | bytes of markets, open-orders accounts, queues and slabs, and the loaders |
| `InitMarket` | `InitializeMarket` on account bytes, `state.rs` 1611-1733, 3477-3604 |
| `Chain` | the program on bytes, any number of markets, and histories of the whole chain, `state.rs` 2550-2680 |
| `Token` | the token program as other people use it (trusted, see below) |
| `History` | genesis of a market and everything that can happen afterwards |
| `Client` | instruction builders, `dex/src/instruction.rs` 666-1169 |
| `Crank` | what the crank reads and the instructions it sends, `dex/crank/src/lib.rs` 393-484, 515-823, 1139-1443, 1573-1595; not RPC, threads; `Daemon` the loop around the rounds with its slots and times, 533-708 |
| `Pool` | `pool/src/{lib,context,pool}.rs`, `pool/examples/{simple,admin-controlled}` |
| `Borsh` | the encoding rules of the Borsh library used by the pool (trusted, see below) |
| `PoolBytes` | requests, admin instructions and pool records as bytes, the entry point, `pool/schema/src/schema.rs`, `pool/src/lib.rs` 45-164 |
| `PoolQuote` | the call that answers `GetBasket`, `pool/src/lib.rs` 136-147, `pool/src/context.rs` 236-262 |
| `PoolHist` | histories of a pool program with any number of pools and mints |
| `Common` | the `common` crate: names of clusters, token transactions of its client and of the crank |
| `Textbook` | specification of matching as one recursive function over a best-first list (`Want.takes`, `Want.rests`), and the proof that every run of the list-level engine (`Path`) computes it |
| `Proxy` | `dex/permissioned/src/{proxy,middleware}.rs`, `assert-owner/src/lib.rs` |
| `Exchange` | `dex/tests/permissioned/programs/permissioned-markets/src/lib.rs` |

Proof infrastructure:

| modules | role |
|---|---|
| `SlabBits`, `SlabTree`, `SlabProofs` | the node array represents a crit-bit tree and a free list; each operation against a sorted list |
| `Sim`, `Refine`, `ProcSim` | engine and processor on arrays and on plain lists give the same results and errors |
| `MatchSteps`, `MatchPath`, `MatchReport`, `MatchSums` | one engine round, all rounds, what a whole run did, what it did to sums of funds |
| `Slots`, `Accounts`, `Inv`, `InvOps`, `InvExec`, `InvCancel`, `InvMatch`, `InvOrder`, `InvTake`, `InvAll` | the market invariant and its preservation by every instruction |
| `Live`, `LiveOrder` | when matching and new orders succeed |
| `Frame`, `Tags`, `Runs`, `Acts` | what never changes; client ids; opened-up instructions; instructions as elementary acts |
| `Shift`, `Swap` | the engine does not look at the market's totals; payments out of the vaults commute with other transfers |
| `Embed` | what succeeds on one book and queue succeeds on another with more room |
| `Fit`, `FitProc` | values of reachable markets fit their byte layout |
| `Local` | an instruction looks only at the open-orders accounts it is given |
| `ChainBytes`, `ChainInv`, `ChainHist` | bytes stand for states (`Rep`); the invariant of the chain (`Holds`) and its preservation |
| `Demo`, `DemoChain` | concrete histories used for non-vacuity: one market; two markets on bytes |

Properties (specification, theorem, non-vacuity example): `PropsFees` C01-C04, `PropsQueue` C05-C06, `PropsBook`
C07-C10, `PropsIds` C11-C12, `PropsOrders` C11, `PropsCodec` C13-C14, `PropsEventFields` C13, `PropsInstr` C15-C16, `PropsAuth`, `PropsDisabled` C17, C33,
C37, C41, C45, `PropsMatch` C18, C19, C21, C22, C24, C25, `PropsFlow` C23, C27, `PropsHist` C20, C26-C30, C36, C42, `PropsCrank`
C31, C43, C44, `PropsCancel` C32, C39, C40, `PropsTags` C40, C52, `PropsTrade` C23, C33, C35, `PropsClaims` C33, `PropsFunds` C34, C38,
`PropsInit` C46, `PropsPool`, `PropsShares` C47-C49, `PropsProxy` C50, C51, `PropsLayout` C53, C54, `PropsPoolHist` C55, C56,
`PropsPoolVaults` C56, C57, `PropsPoolLive` C58, `PropsExit` C59, `PropsDocs` C60, `PropsClient` (with `PropsBuilders`) C61, `PropsCrankClient` (with `PropsMonitor`) C62, C63, `PropsJournal` C64, `PropsPlace` C65, `PropsTake` C66 (both with `Meet`, `PropsMeet`), `PropsChain` C67-C71, `PropsPoolBytes` C72 (with `Utf8`), `PropsPools` C73, `PropsChainExit` C74, `PropsTextbook` C75–C76, `PropsWind` C77, `PropsLife` C78, `PropsWhatIf` C79, C80 (with `PropsPieces`), `PropsDue` (with `PropsRate`) C81, `PropsErrors` C82, `PropsRefusals` (with `Blame`, `PropsReasons`, `PropsRefused`) C83, `PropsMembers` C84, `PropsExchange` (model `Exchange`) C85, `PropsVenue` C86, `PropsCan` C87,
`PropsImpartial` C88, `PropsQuote` C89, `PropsReplace` C90, `PropsCrash` C91 (with `Lossy`), `PropsRent` (model `Rent`) C92, `PropsWire` C93, `PropsOffsets` C94, `PropsGains` C95, `PropsLog` C96, `PropsTrack` C97, `PropsInitReasons` C98, `PropsAnytime` C99, `PropsCrankTime` C100, `PropsAlike` C101, C102, `PropsParts` C103, `PropsSame` C104, `PropsReferral` C105, `PropsAhead` C106, `PropsAgain` C107, `PropsBest` C108, `PropsRoundTrip` C109, `PropsGroup` C110, `PropsWithdraw` C111, `PropsSession` (model `Session`) C112, `PropsDepth` C113, `PropsWalk` C114, `PropsWhole` C115, `PropsDaemon` (model `Daemon`) C116, `PropsRoom` C117 (with `Tight`), `PropsScript` C118 (with `Script`), `PropsFull` C119, `PropsDeep` C120, `PropsSurplus` C121, `PropsTokens` C122, `PropsSupply` C123, `PropsCommon` C124, C125, `PropsBacked` C126, `PropsAdjoint` C127, `PropsPrune` C128. `MANIFEST.json` names the theorems of each property.

Conventions

* `u64`/`u128` values are `Nat`; wrapping operators are explicit (`wadd`, `wsub`, `wmul`, all modulo 2^64).
  The deployed program is a release build and `dex/Cargo.toml` does not enable `overflow-checks`, so
  plain `+ - *` wrap; `checked_*().unwrap()` is an abort. That no wrap occurs (or that it is harmless)
  is proved, not assumed.
* `&mut` becomes a returned value; `Result`/`Option` stay data; panics, `unwrap` failures and
  `check_assert!` failures are error values. A Solana instruction that errs has no effect, so an error
  result means "state unchanged".
* Slices are `List`s. Loops are structural recursion or take fuel; that fuel never runs out is proved.
* Public keys are `Nat`s, the 32 bytes read as a little-endian number; where the code sorts or searches keys as `[u64; 4]`
  the order is `keyLe`.

Histories. `Reach P s` (`History`) contains every state of a market reached from one that `InitializeMarket` created
with both lot sizes positive, by any instructions of anybody with any accounts, removal of closed accounts by the
runtime, and any token instructions that the market's vault signer does not sign. Theorems that speak of order
ids ask that fewer than 2^64 orders were ever placed (`s.seq ≤ 2^64`).

`CReach P n c` (`Chain`) contains every chain reached in `n` steps from one without accounts of the program: successful
instructions given as bytes with any account list, token instructions that no vault signer signs, and anything that may
happen to accounts outside the program. Theorems about it ask that fewer than 2^61 steps were made and `VaultsDiffer P`:
different markets and nonces give different vault signers (collision freedom of address derivation).

`PReach E k c` (`PoolHist`) is the same for a pool program: calls with any bytes and accounts, token instructions with any
mints, changes outside the program. Theorems about it ask `DeriveInj E`: different pool accounts have different authorities.

## 2. Trusted base

* the Lean 4.33.0 kernel; axioms `propext`, `Classical.choice`, `Quot.sound` only (checked with
  `#print axioms` for every theorem named in `MANIFEST.json`); no `sorry`, no `native_decide`, no `bv_decide`, no own axioms;
  no Mathlib import;
* the reading of the Rust code: that the definitions say what the code says;
* runtime: a failed instruction has no effect; the `is_signer` flags are true signatures; an account owned by a
  program is written only by it and was zeroed when handed to it; derived addresses sign only through
  `invoke_signed` of their program, and a cross-program call passes on only signatures the caller has; an address
  derivation yields at most one address per seed (injectivity is a stated hypothesis where used); no open-orders
  account sits at the all-zero address (it is the system program's);
* token program (source not in the repository): `transfer`, `mint_to`, `burn`, `approve`, `set_authority`, `close_account` as in
  `Processor` (`splTransfer`), `Token` (`tokExec`) and `Pool`;
* Anchor's documented account constraints (`init`, `seeds`) for the proxy's `InitAccount`;
* the Borsh specification as in `Borsh` (source not in the repository): integers little-endian, a `u32` count before vectors
  and strings, one byte before variants and options, strict booleans and option bytes, strings are UTF-8, `try_from_slice` refuses
  trailing bytes;
* little-endian layout of `#[repr(C)]`/`bytemuck` casts as written in `Layout`.

Not modelled: RPC and threads of `dex/crank`; of `common` sending, simulating and fetching (`client/rpc.rs` 16-49, 231-263), `path.rs` and the wrappers in `program.rs`; `dex/fuzz`, `dex/tests` but for the example exchange; what
the return-buffer program does with a pool's answer; `dex/crank/src/token_instruction.rs` (in no module, never compiled); proxy middlewares other than the library's three and the example's `Identity`, and post-call hooks (empty in the
library); `RefCell` borrow failures (they need one account named in two roles; the one case in which the program fails and the model does not is an order or send-take with a deposit whose signer is the key of the market, a queue or a book itself, since the token call then meets a borrowed account); compute budget; rent arithmetic (exemption is a parameter, independent of the lamports in `Rent`), transaction fees and rent collection, the runtime's check that accounts changed are writable; logging. The
processor works on decoded values of one market, whose relation to bytes is C53/C54 (`Layout`); that market account,
queues, books and vaults are distinct accounts comes from C46; C67 lifts this to the bytes of all accounts of the chain.
Assumed there of the runtime: accounts have at most 10 MiB, accounts owned by the program are deleted only if the program
closed them (no rent is collected, see F10), address 0 is never handed over. Token accounts are kept apart from the
accounts of the program (`Chain.toks`), since they have another owner.

How the model was checked against the code, besides reading: `Replay` runs the project's own tests of the program
(`dex/src/tests.rs`: new orders, immediate-or-cancel, send-take, batch cancel, deadline, replace) through the model's entry point
with the bytes the tests pack, and gets every balance, fee, rebate, best price and error the tests assert. These are examples, not
proofs of any property. What the project's fuzz target asserts after each random sequence (`dex/fuzz/fuzz_targets/
multiple_orders.rs`: all accounts can be emptied, the totals add up, nobody gains or loses more than their orders allow) is
proved for all sequences by C26, C27, C77 and C95.

## 3. How each property is proved

| id | method |
|---|---|
| C01-C03 | arithmetic over all tiers and amounts: ceiling characterisation, Euclidean division |
| C04 | case analysis on thresholds, monotonicity of the rate |
| C05, C06 | refinement of the ring to a list; lifted to op sequences |
| C07, C08 | refinement of the slab to a sorted association list through an inductive tree; lifted to op sequences |
| C09 | node accounting invariant (used + free list + unbumped = N), used = 2*leaves-1 |
| C10 | DFS stack invariant |
| C11 | bit arithmetic, then induction over histories |
| C12 | bit-level lemmas on 128-bit maps |
| C13, C14 | case analysis, `decide` over the complete flag table |
| C15, C16 | little-endian lemmas, per-kind round trip both ways |
| C17 | flag words as exact sets |
| C18, C19, C21-C25 | induction over the matching loop against the sorted-list view of the book; C23 also per instruction |
| C20, C26-C30, C36, C42, C52 | inductive invariants over all instruction histories |
| C31-C35, C38-C41, C43-C45 | theorems about one instruction in any reachable state |
| C37 | history theorem after disabling |
| C46 | exact acceptance condition on account bytes; the result is a genesis state of `History` |
| C47-C49 | arithmetic, exact effect per request, ratio invariant over histories |
| C50 | induction over the middleware pipeline |
| C51 | direct, over all byte strings |
| C53, C54 | offsets and slices; flag analysis over all byte strings |
| C55-C57 | equivalences for each request; inductive invariants over pool histories with an adversarial admin |
| C58 | forward execution from stated preconditions |
| C59 | induction on queue length and number of orders, each step an executed instruction |
| C60 | case analysis over all instructions against a table copied from the documentation |
| C61 | case analysis over the builders, composed with the theorems on each instruction; conversely, the key lists of parser and builder agree |
| C62, C63 | round trip through the account bytes; induction on the queue; forward execution |
| C64 | induction over histories, each act giving its journal lines and their effect on all claims |
| C65 | every step of the engine succeeds on the list model under bounds that each round preserves, given room for three events per round; with less room it can only fail with `EventQueueFull` (`Lossy`), and then it lacks room for what it meets (`Blame`, `Meet`); then the refinement. An order that stops within a resting order cannot afford another lot, so it meets each order once (`PropsMeet`) |
| C66 | as C65; the outputs are read off the change of the market totals |
| C67-C71 | invariant of all accounts over all histories of the chain (each market's bytes represent a state of its own history), locality and refinement of `process` |
| C72 | laws of codec combinators (round trip both ways, canonical), then the entry point unfolded |
| C73 | invariant of all accounts over all histories; every request replayed as token instructions seen by the other pools |
| C74 | C59 step by step through C67; the instructions change no account's kind |
| C75 | induction over the rounds of a run; a round's recorded reason for stopping is the textbook's; `removeTakerFee` is exactly the largest value payable with its fee |
| C76 | induction over the acceptable prefix of the book from C75; with C65 for placing |
| C77 | induction over the accounts: each leaves as in C59, claims of the others unchanged; with all closed, C26/C27/C30 leave nothing; this is the final check of `dex/fuzz/fuzz_targets/multiple_orders.rs`, for all histories |
| C78 | induction over the acts of a history as in C64, with a balance of lots for every weight on (id, owner); the orders', accounts' and ids' facts are instances of it |
| C79 | two runs compared over the textbook description of C75: induction over matches; where the smaller order takes less it has stopped, by subadditivity of rounded-up fees |
| C80 | sweeps (C76) compose: what a sweep leaves is computed by `dropLots`, additive in its size; rounding up is additive to within one; `split_any` is an induction on the parts and the pauses between them |
| C81 | inversion of the account parser against a separate fee schedule; the journal (C64) and the order record (C78) use the same statement |
| C82 | case analysis over the codes; bit-vector arithmetic for packed assertions |
| C83 | a logic of raised errors (`Raises R x`: every error of `x` satisfies `R`), one table of reasons per instruction stated over books, ledgers and accounts; the matching loop by induction (`Blame`) |
| C84 | induction over histories; an account that appears was opened by an InitOpenOrders with both signatures |
| C85 | a run split into its parts; equality with the proxy's run (C50) for user instructions, equivalences for prune and crank |
| C86 | histories mixing direct and relayed instructions, mapped into histories of the DEX; invariants by induction; C33, C50, C84, C85 |
| C87 | equivalences for disabling, closing, opening; for pruning, induction over the removed orders with the invariant of C18 ff., transferred by the refinement; exact node count of the crit-bit tree |
| C88 | induction over textbook matching on two books that look alike, transferred by C75 |
| C89 | equivalence of checked 128-bit arithmetic with rounding; Borsh round trip of the answer; comparison with C49 |
| C90 | slots are searched in order; composition of the liveness of batch cancels (C40) and of placing (C65) |
| C91 | the matching of an order that may abort, on a queue that may fill up, is compared in `Lossy` with the same matching without aborting on a longer queue: it either goes the same way or fails with `EventQueueFull` or `WouldSelfTrade`; the latter goes through (C65); the rest instruction by instruction |
| C92 | closing by C87 carried to the bytes by C67; that nothing else closes an account, instruction by instruction; induction on the history with lamports |
| C93 | numbers read at offsets, defined without the codec; the decoder's field splits turned into such reads, kind by kind |
| C94 | the same reads through the padding and header of each account; lists of equal fields by induction |
| C95 | the journal of C64 and the record of C78 kept together act by act, so that payments, trades and orders can be compared; bounds by the balance of open lots weighted by price; the highest bid placed before an ask bounds every bid it can meet |
| C96 | the ring buffer as a tape: writing, wrapping around and consuming composed act by act; that only the crank consumes is the simulation of `Sim.lean` with a relation that need not survive a pop; the events of an order from the match report, those of a withdrawal from C31 |
| C97 | induction on the chain's steps with the markets tracked by `Holds`: a step for one market is a token step, or none, for every other; the order in which open-orders accounts are listed may be chosen freely; bytes by C94 |
| C98 | the faults as a list of propositions about the accounts, in the order of the checks; absence of all is `InitOk` (C46) |
| C99 | equality of whole states after two orders of execution; `NotMixed` lists what the other instructions must not touch |
| C100 | equality of whole states after two orders of execution; the crank's success at the end is a conclusion |
| C101 | the list-level processor is a function of what can be seen; refinement on both sides |
| C102 | one-sided simulation (`Embed`) between queues of different length |
| C103 | sum over the parts by induction on the division; C48's invariant (assets per token never fall) and monotone rounding |
| C104 | both runs are the same textbook run (C75) as no own order is met; then the money of C33/C35 and C34 is compared field by field |
| C105 | C64's journal with the referrers' record as a further column; sum over accounts and lines exchanged |
| C106 | the textbook run (C75) on a list splits at any point: what it does to the first part does not depend on the rest; ids order the book, so the part down to X is a prefix; induction over the pair of histories |
| C107 | what the accounts were checked for still holds after the first run; transfers of nothing from a vault held by its signer change nothing (amounts fit by the invariant); selected ids no longer rest, so the refinement gives `OrderNotFound`; later refusals by the record of orders (C78) |
| C108 | exchange argument: the last price met separates what was taken from what was left, so any other choice loses against it order by order; induction along the run, then comparison through the textbook run (C75); nested books by padding a choice with zeros |
| C109 | the effect relations of placing (C65, C78) and cancelling (C32) composed, and compared with the immediate-or-cancel run of the same matching loop |
| C110 | the journal of C64 summed over a group; fees positive because what is traded is part of what belongs to the resting order's owner before or after and so fits in 64 bits |
| C111 | each withdrawal is described by the list of orders it takes (`Withdrawn`), the descriptions compose, and the books left determine the list up to order; deliveries compose and do not depend on the order of events |
| C112 | transactions as lists of steps of the chain; `chain_exec` (C67) carries `open_iff` (C87) and `place_works` (C65) to the bytes |
| C113 | induction along the run from the front of a ranked list; sums regrouped by price; fees as ceilings of the same total |
| C114 | the bit tested at a node is after the bits tested above it, since the ids below agree in those; so depth plus tested bit is at most 129; the loops are compared with the tree |
| C115 | induction over the history with the effects of each instruction; the events of a matching run carry lots times lot size without wrapping |
| C116 | case analysis of a pass; induction over the passes for slots and times; service by C62 for the passes and C96 for what happens between them |
| C117 | one relation between a run and the same run with another queue length, closed under sequencing, through every function of the engine and the processor (`Tight`); then the refinement as in C102 |
| C118 | a recursive script over the touches of C75; each round of the engine writes its part, by cases on the round, and the rounds are put together by induction (`Script`); the count by induction over the textbook, where nothing is met after the order is used up; the room from C117 |
| C119 | the queue keeps its capacity (C59) and never holds more, so an instruction on a full queue wrote no event; by the counts of C118 and the out events of C32 it then met, posted with an event, evicted and withdrew nothing; by cases on the instruction, by induction for replacements and sequences; the exact refusal of a cancel on the list model, carried over by refinement |
| C120 | the run on the deeper book stops only for the reasons of C75; if for lots or prices, lots are counted price by price; if for money, its trades beat any choice from the book at the price of the next order (C108), and both sides are compared in money with fees bounded above and below (C113) |
| C121 | for each instruction the exact effect on the market's totals is compared with the exact payments; a vault cannot be the payer of a deposit because its owner, the vault signer, does not sign; histories by induction |
| C122 | every token movement of the program is a transfer of the token program signed by a signer or the vault signer; a transfer is compared with the sum over any duplicate-free list of accounts, and transfers are composed; then by cases over the instructions, and by induction over histories |
| C123 | transfers are shown to conserve every token, minting and burning to change one account and the supply alike; these compose over a request, the admin only changes approvals; histories by induction, adding for each changed account its amount to a duplicate-free list of holders |
| C124 | substring search characterised by induction over the string; the words by cases |
| C125 | each transaction rewritten to its effect; the supply as in C123, starting from an empty mint; induction over histories |
| C126 | each quote is the floor of the holder's share; floors and shares are added over a duplicate-free list of holders, whose tokens add up to at most the supply by C123 |
| C127 | ceiling and floor of the same fraction form a Galois connection; the rest follows from it or from C01-C03 by linear arithmetic |
| C128 | the traversal of `find_by` as a list of nodes ending in the lowest leaf; prefix and counting arguments; the depth of the tree (C114) bounds the nodes that are no orders; induction over sequences of prunes |

No property is partial. `seeded/LOG.jsonl` records mutation tests: realistic bugs put into the model and the theorems that
then fail.

## 4. Findings (disagreements and surprises met while reading)

* F1 `InitializeMarket` accepts zero lot sizes; several properties need both lot sizes positive.
* F2 SendTake bid: `pc_deposits_total -= net_fees` happens before `+= deposit`, so the counter can wrap
  transiently; restored exactly in a release build, would panic with overflow checks.
* F3 A full book side evicts its worst resting order even if the incoming one is worse still.
* F4 SendTake accrues the referrer share in the market total, but no account is ever credited with it.
* F5 CloseOpenOrders forfeits the account's accrued referrer rebate.
* F6 SweepFees, Prune and InitOpenOrders do not work on a disabled market.
* F7 NewOrderV3 admits 12..14 accounts in its length check but 14 always fails.
* F8 An account's `native_*_total` may wrap transiently in ConsumeEvents (it counts sold funds until the
  fill event is processed, so it is not bounded by the deposits). Balances stay exact, but the
  `free <= total` check may then reject an event until the owner acts.
* F9 `Event::as_view` accepts an out event whose out bit is missing, so a zeroed queue slot reads as an
  empty ask-side out event (theorem `zero_slot_reads_as_out`).
* F10 `InitializeMarket` does not check the market account itself for rent exemption.
* F11 `InitializeMarket` checks the queues and books for zeroes only where the headers go; that the rest is zero is the
  runtime's doing.
* F12 `InitializeMarket` accepts one account as both bids and asks; the market is then unusable.
* F13 Ids of a bid and an ask can coincide once 2^63 orders were placed; ids within a side cannot before 2^64.
* F14 An empty ReplaceOrdersByClientIds succeeds on a disabled market, with no effect.
* F15 Pool `Initialize` accepts vaults owned by a third party who merely made the pool's authority a delegate, the same
  vault twice (redemptions then pay out of it twice), and vaults with foreign delegates or close authorities; C48 and C57
  need distinct vaults held by the authority.
* F16 The pool fee panics for fees of 2^63 or more.
* F17 `GetBasket(Redeem n)` quotes the basket for `n`, while redeeming `n` pays out the basket for `n` minus fees.
* F18 Admin-controlled pool: RemoveAsset, Unpause, AddAsset leaves a delegate with an allowance on a running pool
  (theorem `delegate_slips_in`), which Unpause is meant to exclude.
* F19 The admin of a pool is named at initialisation, not asked to sign.
* F20 The proxy's InitAccount accepts a non-canonical bump; the account made is then out of the proxy's reach.
* F21 The documentation of Prune lists the open-orders account as read-only; it is written (theorem `prune_writes_orders`).
  The documentation of SendTake does not list the owner as signer; their signature is required.
* F22 The client's `initialize_market` drops the prune authority if there is no open-orders authority, and the crank
  authority if there is no prune authority, without notice.
* F23 The crank's single-shot command names the 32 lowest owners in the queue; if the owner of the first event is not
  among them the call succeeds without effect, for ever (theorem `crank_once_stalls`).
* F24 The crank's loop reads the request queue as 88-byte events and fails on a queue of one 80-byte request, which the
  program accepts (theorem `crank_needs_room`).
* F25 The crank only sends ConsumeEvents and cannot serve markets with a crank authority (theorem `crank_refused`).
* F26 `remove_dex_account_padding` slices five bytes before it checks the length and panics on shorter accounts.
* F27 No instruction ever fails with `MarketIsDisabled`: the one check (`state.rs` 1887) follows a load that already refuses
  disabled markets with `InvalidMarketFlags`.
* F28 SendTake asks for no open-orders account and never looks at the authority: on a permissioned market everybody can trade,
  though the example calls its program "the sole arbiter over who can trade" (theorem `outsider_takes`).
* F29 In the example exchange the token that "was revoked" is any account but the identity token, chosen by the caller, and
  nobody has to sign: anyone can have anyone's orders pruned (theorem `anyone_prunes`).
* F30 `InitAccount` takes the bump from the caller, everything after it uses the one of `find_program_address`: an account opened
  with another bump can never be used or closed, and its rent is lost (theorem `venue_lost`). Anchor 0.18 accepts such bumps.
* F31 The limit of a prune counts tree nodes, asks before bids, and every call starts at the root. It is a 16-bit number: behind
  32768 resting asks of others no bid can be pruned at all (theorem `prune_blind`). Up to 32703 resting orders of others, on both
  sides together, repeated prunes with the greatest limit clear any account (theorem `prunes_clear`).
* F32 A withdrawn or filled order keeps its slot and client id until its events are delivered, and CancelOrderByClientIdV2 tries
  only the lowest slot with the id: right after a replacement it can fail with `OrderNotFound` though the new order rests (theorem
  `replace_hides`). CancelOrdersByClientIds reaches it.
* F33 SendTake does not check the lots it may sell before matching: a sell that matches lots worth 2^64 base units or more panics
  (`checked_mul().unwrap()`), where NewOrderV3 answers `InsufficientFunds`. Only the sender's transaction is affected. An example is
  in `PropsCrash`.
* F34 Lamports sent to an open-orders account after it was closed, before the runtime deletes it at the end of the transaction, keep
  it alive in the closed state and can never be taken out again, not even by the owner: no instruction loads a closed account. This
  happens when one transaction closes an account and then closes a second one naming the first as destination
  (`closed_keeps_lamports`).
* F35 (`matching.rs`, `owner == [0; 4]`) A `SendTake` writes no fill of its own: its trades show in the event queue
  only as fills of the resting orders. A feed that counts taker fills misses them; maker fills are complete (C96).
* F36 (`state.rs`, `process_settle_funds`) When one settles matters in two cases only (C99). A settlement without a
  referrer turns the account's rebates into fees, so a sweep after it takes them and a sweep before it does not. And in
  a market of SRM or MSRM a settlement into the wallet named for the fee discount can raise the tier of the next order.
* F37 (`context.rs`, `from_fee_rate_and_tokens`, `get_fees`) The three parts of the pool fee are rounded separately, so a user whose
  own account takes one of them (the waived part) can pay less by dividing a creation: at 0.25% the initialiser's account pays 7 for
  5600 tokens at once, and 3 for each of two halves. Customers taking no fees cannot gain (C103).
* F38 (`state.rs`, `process_send_take`; `matching.rs`) A fifth of each send-take's fee is added to the market's referrer rebates, but
  no account is credited with it and SweepFees takes only `pc_fees_accrued`: that money stays in the vault for ever (C105).
* F39 (`dex/crank/src/lib.rs`, `whole_shebang` 874-895) The bid announced as "successful" has a budget of 500000 for lots that cost 500 * 10000 each:
  the order is accepted but buys and rests nothing, so the three offers that follow meet no bid. `init_open_orders` and `place_order` never name an
  authority over accounts, so the client cannot open accounts on a permissioned market (`open_tx_iff`).
* F40 (`dex/crank/src/lib.rs` 539-668) A round of which the node took no transaction still resets the waiting time: while the queue is shorter than `max_q_length` the loop waits `max_wait_for_events_delay` again before it retries (theorem `daemon_failed_round`).
* F41 (`dex/src/matching.rs` 448) When a selling order meets an order of its own account, the out event written about it states what stays locked of it in lots, while what was released is in native units, as everywhere else in out events. The program itself only asks whether it is zero, but an indexer that reads it is wrong by the lot size (`OrderParams.metOwn`, C118).
* F42 (`dex/src/matching.rs`, `new_bid`, `cancel_order_v2`) An order can be withdrawn only by writing an event, so an owner cannot withdraw while the event queue is full, and must wait for a crank (C119). The two sides differ: a bid that rests always writes an event, even if it releases nothing, while an ask that rests writes none; so on a full queue asks are still accepted and bids are not.
* F43 (`dex/src/matching.rs`, `dex/src/fees.rs`) The taker's fee is rounded up at every match, so a buyer whose money is just enough can get one lot fewer from a book that has an additional small order at the best price (`split_demo`, C120).
* F44 (`dex/src/state.rs`, `SettleFunds`, `SendTake`, `SweepFees`) A vault of the market is accepted as the wallet to be paid. The transfer from the vault to itself succeeds, the balance is written off, and the tokens stay in the vault where no instruction can reach them (`Demo.given`, C121). Tokens sent to a vault from outside are lost in the same way: there is no instruction for the excess.
* F45 (`common/src/client/mod.rs`, 26-36) Any text with `http` anywhere in it, such as `mainnet-http`, is taken for an address and fails only when contacted; and the message for a text that names no cluster lists four of the six known ones.
* F46 (`dex/crank/src/lib.rs`, 238-240) The `Mint` command without a recipient mints to a new account and discards its key without printing the address. The payer owns the account, so nothing is lost, but it has to be looked up.
