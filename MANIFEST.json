{
 "claims": [
  {
   "property": "C01",
   "status": "proved",
   "theorems": [
    "Serum.Props.taker_fee_is_rate_rounded_up"
   ],
   "note": ""
  },
  {
   "property": "C02",
   "status": "proved",
   "theorems": [
    "Serum.Props.buyer_fee_fits_budget"
   ],
   "note": ""
  },
  {
   "property": "C03",
   "status": "proved",
   "theorems": [
    "Serum.Props.net_fees_positive"
   ],
   "note": ""
  },
  {
   "property": "C04",
   "status": "proved",
   "theorems": [
    "Serum.Props.more_tokens_never_raise_fee"
   ],
   "note": ""
  },
  {
   "property": "C05",
   "status": "proved",
   "theorems": [
    "Serum.Props.queue_is_bounded_fifo",
    "Serum.Props.queue_is_bounded_fifo_from"
   ],
   "note": ""
  },
  {
   "property": "C06",
   "status": "proved",
   "theorems": [
    "Serum.Props.revert_undoes_pushes"
   ],
   "note": ""
  },
  {
   "property": "C07",
   "status": "proved",
   "theorems": [
    "Serum.Props.book_side_is_map"
   ],
   "note": ""
  },
  {
   "property": "C08",
   "status": "proved",
   "theorems": [
    "Serum.Props.best_order_lookup"
   ],
   "note": ""
  },
  {
   "property": "C09",
   "status": "proved",
   "theorems": [
    "Serum.Props.book_capacity_never_leaks"
   ],
   "note": ""
  },
  {
   "property": "C10",
   "status": "proved",
   "theorems": [
    "Serum.Props.owner_scan"
   ],
   "note": ""
  },
  {
   "property": "C100",
   "status": "proved",
   "theorems": [
    "Serum.Props.cranking_can_wait",
    "Serum.Props.crank_first_or_last"
   ],
   "note": "Both crank instructions. The limit may not exceed the number of queued events: a crank that runs into the end of the queue would find the later instructions' events the second time. The other instruction's success before the crank is a hypothesis: with a full queue it may succeed only after it."
  },
  {
   "property": "C101",
   "status": "proved",
   "theorems": [
    "Serum.Props.alike_forever"
   ],
   "note": "Compared are the fields a client reads; the event queue's own push counter, which nothing in the program reads, is not among them."
  },
  {
   "property": "C102",
   "status": "proved",
   "theorems": [
    "Serum.Props.longer_queue"
   ],
   "note": "Token instructions and deletions of closed accounts may be in between. A longer book is different: it changes who is evicted."
  },
  {
   "property": "C103",
   "status": "proved",
   "theorems": [
    "Serum.Props.divided_creation",
    "Serum.Props.divided_redemption",
    "Serum.Props.quotes_never_fall"
   ],
   "note": "For customers whose accounts take no fees (F37 shows why); quotes between any moves."
  },
  {
   "property": "C104",
   "status": "proved",
   "theorems": [
    "Serum.Props.take_is_order_settled"
   ],
   "note": "Success of all three instructions is a hypothesis; C65 and C66 say when they succeed. Balances, not delegations, are compared. Demo.ioc_or_take is a case."
  },
  {
   "property": "C105",
   "status": "proved",
   "theorems": [
    "Serum.Props.referral_money",
    "Serum.Props.lost_for_good"
   ],
   "note": "For every journal of C64; B is any duplicate-free list containing the accounts the journal is about"
  },
  {
   "property": "C106",
   "status": "proved",
   "theorems": [
    "Serum.Props.order_treats_alike",
    "Serum.Props.take_treats_alike",
    "Serum.Props.only_ahead_matters",
    "Serum.Props.order_behind",
    "Serum.Props.rest_behind"
   ],
   "note": "single instructions: order_treats_alike, take_treats_alike; whole pairs of histories: only_ahead_matters; what leaves the queue alone: order_behind, rest_behind. Demos Serum.Demo.ahead_demo, twins_demo"
  },
  {
   "property": "C107",
   "status": "proved",
   "theorems": [
    "Serum.Props.settle_again",
    "Serum.Props.sweep_again",
    "Serum.Props.open_again",
    "Serum.Props.close_again",
    "Serum.Props.disable_again",
    "Serum.Props.cancel_again",
    "Serum.Props.cancel_again_ever",
    "Serum.Props.cancel_by_id_again",
    "Serum.Props.batch_again",
    "Serum.Props.crank_again"
   ],
   "note": "An order, a send-take, a crank of a non-empty queue and a limited prune are not repetitions but further actions: a second order is a second order (order_again_demo). Concrete cases in Serum.Demo.again_demo."
  },
  {
   "property": "C108",
   "status": "proved",
   "theorems": [
    "Serum.Props.order_best_deal",
    "Serum.Props.take_best_deal",
    "Serum.Props.deeper_order",
    "Serum.Props.deeper_take"
   ],
   "note": "BestDeal compares the gross price in quote units; taker fees follow the gross price up to rounding (C01, C80). One's own orders, cancelled or decremented by self-trade handling, are not part of a choice."
  },
  {
   "property": "C109",
   "status": "proved",
   "theorems": [
    "Serum.Props.cancelled_is_ioc",
    "Serum.Props.used_up_is_ioc",
    "Serum.Props.change_of_mind"
   ],
   "note": "All three parts for the full program; the hypothesis that nobody was pushed off is stated as: every order that rested on the side still rests."
  },
  {
   "property": "C11",
   "status": "proved",
   "theorems": [
    "Serum.Props.order_ids",
    "Serum.Props.accepted_id",
    "Serum.Props.order_id_priority"
   ],
   "note": "Over all histories; the id is the one recorded in the account's new slot. Ids of opposite sides are distinct only up to 2^63 orders, which the statement now says."
  },
  {
   "property": "C110",
   "status": "proved",
   "theorems": [
    "Serum.Props.group_statement",
    "Serum.Props.trading_with_oneself"
   ],
   "note": "group_statement for any stretch of a market's life; trading_with_oneself from the market's creation. Account 0 is never an account."
  },
  {
   "property": "C111",
   "status": "proved",
   "theorems": [
    "Serum.Props.withdrawals_agree",
    "Serum.Props.withdrawals_agree_delivered",
    "Serum.Props.any_order_of_cancels",
    "Serum.Props.cancels_commute"
   ],
   "note": "Both halves of the agreement take the courses of withdrawals as given by their success; any_order_of_cancels and cancels_commute give success for single cancels by the owners. Which order a crank delivers the events in does not matter either."
  },
  {
   "property": "C112",
   "status": "proved",
   "theorems": [
    "Serum.Props.open_tx_iff",
    "Serum.Props.session_open",
    "Serum.Props.session_place",
    "Serum.Props.session_commands"
   ],
   "note": "create_account is modelled for addresses without data; lamports are in C92. The new account is rent exempt because the client pays the minimum the node names."
  },
  {
   "property": "C113",
   "status": "proved",
   "theorems": [
    "Serum.Props.order_fills_depth",
    "Serum.Props.take_fills_depth",
    "Serum.Props.order_trades_depth",
    "Serum.Props.take_trades_depth",
    "Serum.Props.same_depth_order",
    "Serum.Props.same_depth_take"
   ],
   "note": "Both runs of the comparison can sweep in the sense of C76; limits, budgets, order types and self-trade behaviours may differ."
  },
  {
   "property": "C114",
   "status": "proved",
   "theorems": [
    "Serum.Props.books_shallow",
    "Serum.Props.book_shallow"
   ],
   "note": "Node visits, not compute units. How many such walks an instruction makes is bounded by its limit (C24). deep_demo is a book that meets the bound."
  },
  {
   "property": "C115",
   "status": "proved",
   "theorems": [
    "Serum.Props.base_whole",
    "Serum.Props.base_moves_whole"
   ],
   "note": "Quote balances have no such property: fees and partial deposits are in single units. The stored base total of an account is left out: it follows its contents only modulo 2^64 (C29)."
  },
  {
   "property": "C116",
   "status": "proved",
   "theorems": [
    "Serum.Props.slots_increase",
    "Serum.Props.rounds_spaced",
    "Serum.Props.daemon_quiet",
    "Serum.Props.daemon_cranks",
    "Serum.Props.daemon_sends_iff",
    "Serum.Props.daemon_serves",
    "Serum.Props.daemon_starts_due",
    "Serum.Props.daemon_failed_round"
   ],
   "note": "passes one after the other; that what the node takes is executed and that its answers show the market as it is are hypotheses of the service theorem only"
  },
  {
   "property": "C117",
   "status": "proved",
   "theorems": [
    "Serum.Props.needs_its_events",
    "Serum.Props.refused_alike"
   ],
   "note": "exactness for any two queue lengths; consuming events (which writes none) is covered by C102"
  },
  {
   "property": "C118",
   "status": "proved",
   "theorems": [
    "Serum.Props.order_writes",
    "Serum.Props.take_writes",
    "Serum.Props.order_room"
   ],
   "note": "order_writes and take_writes give the exact list of events and their number; order_room turns that into the exact room needed"
  },
  {
   "property": "C119",
   "status": "proved",
   "theorems": [
    "Serum.Props.full_freezes",
    "Serum.Props.full_until_delivery",
    "Serum.Props.full_order",
    "Serum.Props.full_take",
    "Serum.Props.full_withdraw",
    "Serum.Props.cancel_full",
    "Serum.Props.withdrawal_room"
   ],
   "note": "Proved for all instructions and sequences of them; the exact refusal for the owner's cancel by order id, and for every cancel and prune relative to a longer queue."
  },
  {
   "property": "C12",
   "status": "proved",
   "theorems": [
    "Serum.Props.slots_never_collide"
   ],
   "note": ""
  },
  {
   "property": "C120",
   "status": "proved",
   "theorems": [
    "Serum.Props.deeper_order_lots",
    "Serum.Props.deeper_take_lots",
    "Serum.Props.shortfall_one"
   ],
   "note": "Shortfall is the stated exception; shortfall_one the corollary for lots that cost more units than there were matches; split_demo shows that one lot can be missed."
  },
  {
   "property": "C121",
   "status": "proved",
   "theorems": [
    "Serum.Props.vault_holds",
    "Serum.Props.surplus_instruction",
    "Serum.Props.surplus_lasts"
   ],
   "note": "the hypothesis NotVault says that the vault signer, a program address, signs nothing; up to 2^64 orders"
  },
  {
   "property": "C122",
   "status": "proved",
   "theorems": [
    "Serum.Props.tokens_kept",
    "Serum.Props.tokens_kept_bytes",
    "Serum.Props.tokens_last"
   ],
   "note": "Any state, reachable or not; the token program's transfer itself is modelled, not verified."
  },
  {
   "property": "C123",
   "status": "proved",
   "theorems": [
    "Serum.Props.pool_tokens",
    "Serum.Props.supply_held",
    "Serum.Props.step_held",
    "Serum.Props.token_held",
    "Serum.Props.call_keeps",
    "Serum.Props.SupplyHeld.all"
   ],
   "note": "The token program's bookkeeping of supply and mint authority is part of the trusted environment, as for the other pool claims. Accounts of wrapped lamports may be closed with tokens in them; for other tokens the token program refuses it, so the condition on histories holds of itself."
  },
  {
   "property": "C124",
   "status": "proved",
   "theorems": [
    "Serum.Props.cluster_named",
    "Serum.Props.cluster_round_trip",
    "Serum.Props.cluster_url",
    "Serum.Props.cluster_apart"
   ],
   "note": "Lower case is modelled for ASCII, which is exact here: no other character becomes one of the letters used."
  },
  {
   "property": "C125",
   "status": "proved",
   "theorems": [
    "Serum.Props.client_create_account",
    "Serum.Props.client_create_mint",
    "Serum.Props.client_mint",
    "Serum.Props.client_mint_existing",
    "Serum.Props.client_initialize_account",
    "Serum.Props.client_transfer",
    "Serum.Props.client_held",
    "Serum.Props.token_life"
   ],
   "note": "Lamports, sending and confirming are not modelled; a transaction is the effect of its token instructions. Transfers are stated for an owner who is not also the account's delegate."
  },
  {
   "property": "C126",
   "status": "proved",
   "theorems": [
    "Serum.Props.holders_backed",
    "Serum.Props.holders_backed_later"
   ],
   "note": "Quotes are before fees, as the pool answers them; C89 relates them to what a redemption pays."
  },
  {
   "property": "C127",
   "status": "proved",
   "theorems": [
    "Serum.Props.fee_adjoint",
    "Serum.Props.fee_round_trip",
    "Serum.Props.fee_monotone",
    "Serum.Props.fee_kept_back",
    "Serum.Props.net_fee_rate",
    "Serum.Props.rate_stored"
   ],
   "note": "Strengthens what the property tests in fees.rs assert on samples, for all inputs."
  },
  {
   "property": "C128",
   "status": "proved",
   "theorems": [
    "Serum.Props.prune_reach",
    "Serum.Props.prune_clears_iff",
    "Serum.Props.prunes_clear",
    "Serum.Props.prunes_can"
   ],
   "note": "The exact reach of a prune for every limit; C39 gives what a withdrawal does, C87 that a prune goes through."
  },
  {
   "property": "C13",
   "status": "proved",
   "theorems": [
    "Serum.Props.event_codec",
    "Serum.Props.zero_slot_reads_as_out",
    "Serum.Props.event_fields"
   ],
   "note": ""
  },
  {
   "property": "C14",
   "status": "proved",
   "theorems": [
    "Serum.Props.request_codec"
   ],
   "note": ""
  },
  {
   "property": "C15",
   "status": "proved",
   "theorems": [
    "Serum.Props.instruction_round_trip"
   ],
   "note": ""
  },
  {
   "property": "C16",
   "status": "proved",
   "theorems": [
    "Serum.Props.decoding_is_strict",
    "Serum.Props.decoding_is_injective"
   ],
   "note": ""
  },
  {
   "property": "C17",
   "status": "proved",
   "theorems": [
    "Serum.Props.market_flags",
    "Serum.Props.permissioned_is_one_bit",
    "Serum.Props.disabled_refuses"
   ],
   "note": "For every flag word (any natural number, so all 2^64)."
  },
  {
   "property": "C18",
   "status": "proved",
   "theorems": [
    "Serum.Props.limit_price_protection"
   ],
   "note": "for every engine state and order satisfying MatchPre"
  },
  {
   "property": "C19",
   "status": "proved",
   "theorems": [
    "Serum.Props.price_time_priority"
   ],
   "note": "for every engine state and order satisfying MatchPre"
  },
  {
   "property": "C20",
   "status": "proved",
   "theorems": [
    "Serum.Props.book_never_crosses"
   ],
   "note": "Every reachable state, all instructions and outside token activity."
  },
  {
   "property": "C21",
   "status": "proved",
   "theorems": [
    "Serum.Props.order_types"
   ],
   "note": "for every engine state and order satisfying MatchPre"
  },
  {
   "property": "C22",
   "status": "proved",
   "theorems": [
    "Serum.Props.self_trade",
    "Serum.Props.self_trade_abort"
   ],
   "note": "for every engine state and order satisfying MatchPre"
  },
  {
   "property": "C23",
   "status": "proved",
   "theorems": [
    "Serum.Props.order_uses_at_most",
    "Serum.Props.place_effect",
    "Serum.Props.order_within_size_and_budget"
   ],
   "note": "Instruction level in every reachable state; engine level for every book in order_within_size_and_budget."
  },
  {
   "property": "C24",
   "status": "proved",
   "theorems": [
    "Serum.Props.matching_work_bounded"
   ],
   "note": "for every engine state and order satisfying MatchPre"
  },
  {
   "property": "C25",
   "status": "proved",
   "theorems": [
    "Serum.Props.eviction"
   ],
   "note": "for every engine state and order satisfying MatchPre"
  },
  {
   "property": "C26",
   "status": "proved",
   "theorems": [
    "Serum.Props.base_conservation"
   ],
   "note": "Every reachable state."
  },
  {
   "property": "C27",
   "status": "proved",
   "theorems": [
    "Serum.Props.quote_conservation",
    "Serum.Props.fees_are_exact"
   ],
   "note": "Conservation in every reachable state, and the change of fees held across every instruction."
  },
  {
   "property": "C28",
   "status": "proved",
   "theorems": [
    "Serum.Props.vault_solvency"
   ],
   "note": "Every reachable state; vaults as configured at genesis (owner vault signer, no delegate, no close authority)."
  },
  {
   "property": "C29",
   "status": "proved",
   "theorems": [
    "Serum.Props.totals_are_backed"
   ],
   "note": "Every reachable state; totals are compared modulo 2^64 as the code keeps them."
  },
  {
   "property": "C30",
   "status": "proved",
   "theorems": [
    "Serum.Props.slots_are_live_orders"
   ],
   "note": "Every reachable state."
  },
  {
   "property": "C31",
   "status": "proved",
   "theorems": [
    "Serum.Props.crank_progress",
    "Serum.Props.permissioned_crank_progress",
    "Serum.Props.crank_delivers"
   ],
   "note": "Progress for the open and the permissioned crank, plus exact delivery; the hypothesis that held plus due amounts fit in 64 bits is the one named in the statement."
  },
  {
   "property": "C32",
   "status": "proved",
   "theorems": [
    "Serum.Props.cancel_works",
    "Serum.Props.cancel_effect",
    "Serum.Props.cancel_by_id_effect"
   ],
   "note": "cancel_works: the owner's cancel succeeds in every reachable state (any market flags) with queue room when what is held for the account fits in 64 bits; cancel_effect / cancel_by_id_effect: every successful cancel withdraws exactly one order, with exact credit and one out event (Withdrawn)."
  },
  {
   "property": "C33",
   "status": "proved",
   "theorems": [
    "Serum.Props.others_left_alone",
    "Serum.Props.wallets_left_alone",
    "Serum.Props.needs_signature"
   ],
   "note": "An instruction moves an account's balances only with the owner's signature (other accounts only trade through their resting orders, at their price or better, and get freed funds), debits a wallet only with its authority's signature, and every instruction needs the signature listed in Authorised."
  },
  {
   "property": "C34",
   "status": "proved",
   "theorems": [
    "Serum.Props.settle_effect",
    "Serum.Props.settle_twice",
    "Serum.Props.settle_works"
   ],
   "note": "settle_effect gives the exact payments, totals and deposits after a successful settle in any reachable state; settle_twice says a second settle is the identity; settle_works says settling succeeds in every reachable state with well-formed wallets, so the vaults never lack funds. settle_works assumes the owner's holdings fit 64 bits (HoldsFit): the account totals are 64-bit counters."
  },
  {
   "property": "C35",
   "status": "proved",
   "theorems": [
    "Serum.Props.send_take_limits",
    "Serum.Props.take_effect"
   ],
   "note": "Every send-take from every reachable state: trades only with resting orders within the limit, size, budget, minimum, exact token movements, nothing rests."
  },
  {
   "property": "C36",
   "status": "proved",
   "theorems": [
    "Serum.Props.close_is_safe"
   ],
   "note": "Every reachable state."
  },
  {
   "property": "C37",
   "status": "proved",
   "theorems": [
    "Serum.Props.disabled_refuses",
    "Serum.Props.disabled_forever",
    "Serum.Props.only_authority_disables",
    "Serum.Props.cancel_works",
    "Serum.Props.settle_works",
    "Serum.Props.crank_progress",
    "Serum.Props.close_works"
   ],
   "note": "Disabled markets over all continuations. Cancel, settle, event processing and closing remain available: cancel_works, settle_works, crank_progress and close_works hold in every reachable state, disabled or not."
  },
  {
   "property": "C38",
   "status": "proved",
   "theorems": [
    "Serum.Props.sweep_effect"
   ],
   "note": "sweep_effect: signature of the fee sweeper, exact transfer, fees zeroed, everything else equal."
  },
  {
   "property": "C39",
   "status": "proved",
   "theorems": [
    "Serum.Props.prune_effect"
   ],
   "note": "prune_effect: authority signature, only the named account's orders, exact credit, one out event each, all of them when the limit is large enough."
  },
  {
   "property": "C40",
   "status": "proved",
   "theorems": [
    "Serum.Props.batch_cancels_named",
    "Serum.Props.batch_works",
    "Serum.Props.replace_effect"
   ],
   "note": "batch_cancels_named: exactly the account's resting orders carrying a named non-zero client id; batch_works: the owner's batch never fails for ids that are not on the book (given queue room and holdings below 2^64); replace_effect: batch cancel of the new orders' ids, then each new order as its own instruction."
  },
  {
   "property": "C41",
   "status": "proved",
   "theorems": [
    "Serum.Props.late_order_rejected",
    "Serum.Props.timely_order_unaffected"
   ],
   "note": "The deadline is compared with the clock of the environment; 'no deadline' is i64::MAX, which is how the 46-byte payload decodes."
  },
  {
   "property": "C42",
   "status": "proved",
   "theorems": [
    "Serum.Props.rebates_are_covered"
   ],
   "note": "Every reachable state."
  },
  {
   "property": "C43",
   "status": "proved",
   "theorems": [
    "Serum.Props.crank_batching",
    "Serum.Props.crank_batching_error",
    "Serum.Props.permissioned_crank_batching",
    "Serum.Props.crank_delivers"
   ],
   "note": "Splitting and no double or skipped event."
  },
  {
   "property": "C44",
   "status": "proved",
   "theorems": [
    "Serum.Props.open_crank_refused",
    "Serum.Props.permissioned_crank_authorised"
   ],
   "note": "All states and account lists."
  },
  {
   "property": "C45",
   "status": "proved",
   "theorems": [
    "Serum.Props.removed_instructions",
    "Serum.Props.failure_changes_nothing",
    "Serum.Props.removed_instructions_change_nothing"
   ],
   "note": "Failed transactions are rolled back by the Solana runtime; the model's after function states this (trusted)."
  },
  {
   "property": "C46",
   "status": "proved",
   "theorems": [
    "Serum.Props.fresh_market",
    "Serum.Props.init_market_iff",
    "Serum.Props.no_second_market"
   ],
   "note": "InitializeMarket on account bytes: exact acceptance condition, resulting account contents (decoded with the loaders of C53), starting point of all histories given positive lot sizes, no re-initialisation. Trusted: the runtime hands program accounts over zeroed."
  },
  {
   "property": "C47",
   "status": "proved",
   "theorems": [
    "Serum.Props.pool_fees",
    "Serum.Props.Split.unique"
   ],
   "note": "Fees are computed exactly when the rate is in range and the fee below 2^63; the split is described and shown unique."
  },
  {
   "property": "C48",
   "status": "proved",
   "theorems": [
    "Serum.Props.never_diluted",
    "Serum.Props.no_profit",
    "Serum.Props.round_trip"
   ],
   "note": "Over histories of pool requests and token instructions by others; needs distinct vaults held by the pool signer (Initialize does not enforce either: see findings)."
  },
  {
   "property": "C49",
   "status": "proved",
   "theorems": [
    "Serum.Props.pool_create",
    "Serum.Props.pool_redeem",
    "Serum.Props.pool_swap",
    "Serum.Props.quoted_creation"
   ],
   "note": "Complete effect on every token account and the supply."
  },
  {
   "property": "C50",
   "status": "proved",
   "theorems": [
    "Serum.Props.proxy_signers",
    "Serum.Props.proxy_ignores_rest",
    "Serum.Props.proxy_for_user",
    "Serum.Props.proxy_only_user",
    "Serum.Props.proxy_allowance",
    "Serum.Props.proxy_referral",
    "Serum.Props.proxy_init",
    "Serum.Props.proxy_reach"
   ],
   "note": "Arbitrary lists of the library's three middlewares with OpenOrdersPda at most once; custom middlewares, and Anchor's account creation beyond its documented constraints, are not modelled. Relayed signers are exact; unlisted or undecodable instructions change nothing; the user named signed and the account is the one derived from market and user; allowance exact and revoked; referrer enforced; runs preserve reachability so the DEX theorems carry over."
  },
  {
   "property": "C51",
   "status": "proved",
   "theorems": [
    "Serum.Props.assert_owner"
   ],
   "note": "All byte strings and account lists."
  },
  {
   "property": "C52",
   "status": "proved",
   "theorems": [
    "Serum.Props.client_ids_agree"
   ],
   "note": "client_ids_agree, by induction over histories."
  },
  {
   "property": "C53",
   "status": "proved",
   "theorems": [
    "Serum.Props.market_bytes",
    "Serum.Props.orders_bytes",
    "Serum.Props.event_queue_bytes",
    "Serum.Props.request_queue_bytes",
    "Serum.Props.book_bytes"
   ],
   "note": "Byte-level layouts and loaders of all five account types; whole-account round trips for arbitrary contents and trailing bytes."
  },
  {
   "property": "C54",
   "status": "proved",
   "theorems": [
    "Serum.Props.one_kind",
    "Serum.Props.closed_is_nothing",
    "Serum.Props.blank_is_nothing"
   ],
   "note": "For all byte strings; also closed and blank accounts."
  },
  {
   "property": "C55",
   "status": "proved",
   "theorems": [
    "Serum.Props.pool_init",
    "Serum.Props.pool_once",
    "Serum.Props.pool_identity",
    "Serum.Props.pool_life"
   ],
   "note": "pool_init is an equivalence; the others are over all histories of pool requests and token instructions. The Borsh encoding of the requests is in C72."
  },
  {
   "property": "C56",
   "status": "proved",
   "theorems": [
    "Serum.Props.pool_admin",
    "Serum.Props.pool_state",
    "Serum.Props.paused_refuses",
    "Serum.Props.running_undelegated",
    "Serum.Props.outflow_redeem",
    "Serum.Props.delegate_slips_in"
   ],
   "note": "delegate_slips_in shows the proviso of running_undelegated cannot be dropped."
  },
  {
   "property": "C57",
   "status": "proved",
   "theorems": [
    "Serum.Props.admin_never_dilutes"
   ],
   "note": "Over all histories in which no step removes the asset or delegates its vault."
  },
  {
   "property": "C58",
   "status": "proved",
   "theorems": [
    "Serum.Props.redeem_live",
    "Serum.Props.create_live"
   ],
   "note": "CanRedeem and CanCreate list what it takes."
  },
  {
   "property": "C59",
   "status": "proved",
   "theorems": [
    "Serum.Props.can_leave",
    "Serum.Props.queue_capacity"
   ],
   "note": "can_leave: exit from every reachable state; queue_capacity: no instruction changes the event queue's capacity. Hypothesis AllFit (holdings of the accounts in the queue fit in 64 bits) is needed because of finding F8."
  },
  {
   "property": "C60",
   "status": "proved",
   "theorems": [
    "Serum.Props.only_documented_signatures",
    "Serum.Props.signers_documented",
    "Serum.Props.writes_documented",
    "Serum.Props.prune_writes_orders"
   ],
   "note": "docSigner and docWritable copy the comments of instruction.rs, corrected for the two accounts named in the statement"
  },
  {
   "property": "C61",
   "status": "proved",
   "theorems": [
    "Serum.Props.client_signatures",
    "Serum.Props.client_writes",
    "Serum.Props.client_order",
    "Serum.Props.client_take",
    "Serum.Props.client_cancel",
    "Serum.Props.client_cancel_by_id",
    "Serum.Props.client_cancel_batch",
    "Serum.Props.client_settle",
    "Serum.Props.client_sweep",
    "Serum.Props.client_prune",
    "Serum.Props.client_close",
    "Serum.Props.client_open",
    "Serum.Props.client_disable",
    "Serum.Props.client_match",
    "Serum.Props.client_crank",
    "Serum.Props.client_market",
    "Serum.Props.client_cancel_works",
    "Serum.Props.client_settle_works",
    "Serum.Props.client_close_works",
    "Serum.Props.client_crank_works",
    "Serum.Props.client_complete"
   ],
   "note": "the runtime's delivery of a call (a key signs or not, once per transaction) is Call.accts; replace_order_by_client_id has no builder"
  },
  {
   "property": "C62",
   "status": "proved",
   "theorems": [
    "Serum.Props.crank_reads_queue",
    "Serum.Props.crank_reads_market",
    "Serum.Props.crank_market_sound",
    "Serum.Props.crank_call_safe",
    "Serum.Props.crank_calls_safe",
    "Serum.Props.crank_round",
    "Serum.Props.crank_empties",
    "Serum.Props.crank_once",
    "Serum.Props.crank_once_stalls",
    "Serum.Props.crank_refused",
    "Serum.Props.crank_needs_room",
    "Serum.Props.crank_commands",
    "Serum.Props.monitor_counts"
   ],
   "note": "QueueFits: what each account with queued events holds and is due fits in 64 bits; the binary search is any that meets the library's contract"
  },
  {
   "property": "C63",
   "status": "proved",
   "theorems": [
    "Serum.Props.list_market_works",
    "Serum.Props.list_market_fails"
   ],
   "note": "the accounts are created by the system program and the token program, which are assumed to zero and initialise them"
  },
  {
   "property": "C64",
   "status": "proved",
   "theorems": [
    "Serum.Props.journal_accounts",
    "Serum.Props.journal_from_start"
   ],
   "note": "Claims as in C33. Rebates of a closed account are forfeited when the runtime removes it; account 0 is never an account."
  },
  {
   "property": "C65",
   "status": "proved",
   "theorems": [
    "Serum.Props.place_works",
    "Serum.Props.order_meets_at_most"
   ],
   "note": "Sufficient conditions (CanPlace): three queue entries for every order met plus two, at every fee tier; the account's holdings plus all deposits of the token it may receive must be below 2^64. Effect given by PlaceEffect. order_meets_at_most bounds the orders met."
  },
  {
   "property": "C66",
   "status": "proved",
   "theorems": [
    "Serum.Props.take_works",
    "Serum.Props.take_meets_at_most"
   ],
   "note": "Fee-tier refusals and 64-bit sums are ruled out by the hypotheses listed in CanTake; the minimum is compared with the traded amounts of the effect theorem."
  },
  {
   "property": "C67",
   "status": "proved",
   "theorems": [
    "Serum.Props.chain_markets",
    "Serum.Props.chain_accounts",
    "Serum.Props.chain_exec",
    "Serum.Props.chain_no_market"
   ],
   "note": "On bytes, any number of markets; n < 2^61 steps, VaultsDiffer. Example: DemoChain.two_markets."
  },
  {
   "property": "C68",
   "status": "proved",
   "theorems": [
    "Serum.Props.chain_isolated",
    "Serum.Props.chain_disjoint"
   ],
   "note": "Vault parts for positive lot sizes. Example: DemoChain.two_markets."
  },
  {
   "property": "C69",
   "status": "proved",
   "theorems": [
    "Serum.Props.chain_writes"
   ],
   "note": "docWritable is the table of C60. Example: DemoChain.two_markets."
  },
  {
   "property": "C70",
   "status": "proved",
   "theorems": [
    "Serum.Props.chain_solvency"
   ],
   "note": "For any duplicate-free list of addresses. Example: DemoChain.two_markets."
  },
  {
   "property": "C71",
   "status": "proved",
   "theorems": [
    "Serum.Props.chain_lasts",
    "Serum.Props.chain_step_lasts",
    "Serum.Props.owner_stays"
   ],
   "note": "Configuration for ever; owners step by step. Example: DemoChain.two_markets."
  },
  {
   "property": "C72",
   "status": "proved",
   "theorems": [
    "Serum.Props.pool_received",
    "Serum.Props.pool_messages_differ",
    "Serum.Props.pool_read",
    "Serum.Props.pool_saved",
    "Serum.Props.pool_save_same",
    "Serum.Props.pool_entry",
    "Serum.Props.record_view",
    "Serum.Props.record_fits"
   ],
   "note": "Borsh per its specification"
  },
  {
   "property": "C73",
   "status": "proved",
   "theorems": [
    "Serum.Props.pools_alive",
    "Serum.Props.pool_continues",
    "Serum.Props.pools_differ",
    "Serum.Props.pools_isolated",
    "Serum.Props.pools_never_dilute"
   ],
   "note": "assumes that different pool accounts have different derived authorities"
  },
  {
   "property": "C74",
   "status": "proved",
   "theorems": [
    "Serum.Props.chain_can_leave"
   ],
   "note": "Hypotheses as in C59; addresses are 32 bytes long; fewer than 2^61 steps"
  },
  {
   "property": "C75",
   "status": "proved",
   "theorems": [
    "Serum.Props.order_by_the_book",
    "Serum.Props.send_take_by_the_book",
    "Serum.Props.lots_greatest"
   ],
   "note": "order_by_the_book and send_take_by_the_book give the exact trades, the exact remainder and the reason for stopping; lots_greatest characterises the lots taken declaratively"
  },
  {
   "property": "C76",
   "status": "proved",
   "theorems": [
    "Serum.Props.order_sweeps",
    "Serum.Props.take_sweeps",
    "Serum.Props.funded_order_sweeps"
   ],
   "note": "order_sweeps and take_sweeps are the closed form for any successful order or take; funded_order_sweeps adds that the order goes through"
  },
  {
   "property": "C77",
   "status": "proved",
   "theorems": [
    "Serum.Props.market_empties",
    "Serum.Props.sweep_works"
   ],
   "note": "Also strengthens C34/C59: payments keep mints and freeze state, the market record after leaving is stated."
  },
  {
   "property": "C78",
   "status": "proved",
   "theorems": [
    "Serum.Props.orders_recorded",
    "Serum.Props.life_of_an_order",
    "Serum.Props.gone_for_good",
    "Serum.Props.every_trade_was_placed",
    "Serum.Props.never_overspends",
    "Serum.Props.Record.apart"
   ],
   "note": "for every order, account and history; includes the per-account gain bounds of the fuzz target"
  },
  {
   "property": "C79",
   "status": "proved",
   "theorems": [
    "Serum.Props.kinder_order_extends",
    "Serum.Props.bigger_order_trades_more",
    "Serum.Props.bigger_take_trades_more"
   ],
   "note": "Both runs are of the engine from the same reachable state, with the same account list; sequence number below 2^64; account list passes no market vault as a user wallet (NotVault). Part one: trades of the less generous order are a prefix. Part two: none of the orders within the more generous limit is the sender's own (true of every send-take)."
  },
  {
   "property": "C80",
   "status": "proved",
   "theorems": [
    "Serum.Props.split_order",
    "Serum.Props.split_any"
   ],
   "note": "Whole and parts can each sweep in the sense of C76 and pay the same tier. split_order is the case of two orders one right after the other, with the exact rounding; split_any is the general one."
  },
  {
   "property": "C81",
   "status": "proved",
   "theorems": [
    "Serum.Props.order_pays_due_rate",
    "Serum.Props.take_pays_due_rate",
    "Serum.Props.discount_needs_own_tokens"
   ],
   "note": "isStable is the model parameter for the hard-coded market addresses; token accounts as in the ledger of the model."
  },
  {
   "property": "C82",
   "status": "proved",
   "theorems": [
    "Serum.Props.code_round_trip",
    "Serum.Props.code_injective",
    "Serum.Props.code_read",
    "Serum.Props.assertion_value",
    "Serum.Props.assertion_readable",
    "Serum.Props.assertion_no_code",
    "Serum.Props.failure_told_apart",
    "Serum.Props.wire_told_apart"
   ],
   "note": "Numbers and codes translate back and forth; packed assertion numbers are read off; no collisions."
  },
  {
   "property": "C83",
   "status": "proved",
   "theorems": [
    "Serum.Props.reasons_true",
    "Serum.Props.order_refused",
    "Serum.Props.take_refused",
    "Serum.Props.cancel_refused",
    "Serum.Props.cancel_by_refused",
    "Serum.Props.batch_refused",
    "Serum.Props.replace_refused",
    "Serum.Props.consume_refused",
    "Serum.Props.consume_permissioned_refused",
    "Serum.Props.settle_refused",
    "Serum.Props.close_refused",
    "Serum.Props.open_refused",
    "Serum.Props.prune_refused",
    "Serum.Props.disable_refused",
    "Serum.Props.sweep_refused"
   ],
   "note": "One table of reasons per instruction over the state before it; every failure is in its table. Hypotheses: fewer than 2^64-8 orders so far, vault signer does not sign."
  },
  {
   "property": "C84",
   "status": "proved",
   "theorems": [
    "Serum.Props.members_admitted",
    "Serum.Props.orders_by_members",
    "Serum.Props.makers_admitted",
    "Serum.Props.outsider_takes"
   ],
   "note": "Over all histories of a permissioned market. outsider_takes shows the exception, send-takes (F28)."
  },
  {
   "property": "C85",
   "status": "proved",
   "theorems": [
    "Serum.Props.exchange_user",
    "Serum.Props.exchange_prune",
    "Serum.Props.exchange_crank",
    "Serum.Props.exchange_consume",
    "Serum.Props.exchange_ignores_rest",
    "Serum.Props.anyone_prunes",
    "Serum.Props.exchange_reach"
   ],
   "note": "Model of the example exchange over the proxy of C50; exchange_user gives equality with the proxy's run, exchange_prune and exchange_crank are equivalences; anyone_prunes is F29."
  },
  {
   "property": "C86",
   "status": "proved",
   "theorems": [
    "Serum.Props.venue_reach",
    "Serum.Props.venue_accounts",
    "Serum.Props.venue_sole",
    "Serum.Props.venue_user",
    "Serum.Props.venue_lost"
   ],
   "note": "Over histories mixing direct and relayed instructions; signers hold no keys to derived addresses, vault signers are not derived by the exchange. venue_lost is F30."
  },
  {
   "property": "C87",
   "status": "proved",
   "theorems": [
    "Serum.Props.disable_iff",
    "Serum.Props.close_iff",
    "Serum.Props.open_iff",
    "Serum.Props.prune_works",
    "Serum.Props.prune_works_effect",
    "Serum.Props.prune_blind"
   ],
   "note": "exact success conditions in every reachable state; pruning up to 64-bit fit of what the account holds"
  },
  {
   "property": "C88",
   "status": "proved",
   "theorems": [
    "Serum.Props.order_impartial",
    "Serum.Props.take_impartial",
    "Serum.Props.take_like_order",
    "Serum.Props.order_same_front",
    "Serum.Props.crank_neutral"
   ],
   "note": "Two executions compared at book level; fee tier equality is a hypothesis for different senders and proved for the same accounts."
  },
  {
   "property": "C89",
   "status": "proved",
   "theorems": [
    "Serum.Props.quote_iff",
    "Serum.Props.quote_delivered",
    "Serum.Props.quoted_creation",
    "Serum.Props.quoted_redemption",
    "Serum.Props.quotes_spread"
   ],
   "note": "What the return-buffer program does with the call is outside the repository."
  },
  {
   "property": "C90",
   "status": "proved",
   "theorems": [
    "Serum.Props.client_cancel_outcome",
    "Serum.Props.replace_works",
    "Serum.Props.replace_hides"
   ],
   "note": "CanReplace lists what the trader needs; single replacement."
  },
  {
   "property": "C91",
   "status": "proved",
   "theorems": [
    "Serum.Props.never_crashes",
    "Serum.Props.crashes",
    "Serum.Props.creating_never_crashes"
   ],
   "note": "never_crashes: for all bytes, accounts and reachable states; crashes: the retired instructions and short replacements do panic; creating_never_crashes: InitializeMarket; chain_sane: the hypothesis on the environment holds on the chain"
  },
  {
   "property": "C92",
   "status": "proved",
   "theorems": [
    "Serum.Props.only_closing_moves_lamports",
    "Serum.Props.closing_pays",
    "Serum.Props.deposit_is_safe",
    "Serum.Props.closed_keeps_lamports"
   ],
   "note": "model in Rent; runtime rules on lamports are part of the model"
  },
  {
   "property": "C93",
   "status": "proved",
   "theorems": [
    "Serum.Props.wire_format",
    "Serum.Props.packed_is_wire"
   ],
   "note": "The layout is stated through leAt (numbers read at byte offsets), independent of pack/unpack; both directions."
  },
  {
   "property": "C94",
   "status": "proved",
   "theorems": [
    "Serum.Props.market_offsets",
    "Serum.Props.orders_offsets",
    "Serum.Props.event_queue_offsets",
    "Serum.Props.request_queue_offsets",
    "Serum.Props.book_offsets"
   ],
   "note": "For every account content a loader accepts; with C53 also for every content the program stores."
  },
  {
   "property": "C95",
   "status": "proved",
   "theorems": [
    "Serum.Props.gains_and_losses_bounded"
   ],
   "note": "for every account of every history from the creation of a market; the fuzz target's own oracle"
  },
  {
   "property": "C96",
   "status": "proved",
   "theorems": [
    "Serum.Props.event_queue_is_a_log",
    "Serum.Props.act_logged",
    "Serum.Props.order_tells",
    "Serum.Props.take_tells",
    "Serum.Props.withdrawn_tells"
   ],
   "note": "counter, ring slots and pending events over any history; the events written tell the record of C78"
  },
  {
   "property": "C97",
   "status": "proved",
   "theorems": [
    "Serum.Props.chain_history",
    "Serum.Props.chain_birth",
    "Serum.Props.chain_event_log",
    "Serum.Props.chain_gains_bounded"
   ],
   "note": "lot sizes positive; histories of fewer than 2^61 steps; different markets have different vault signers (program addresses)"
  },
  {
   "property": "C98",
   "status": "proved",
   "theorems": [
    "Serum.Props.init_refusal",
    "Serum.Props.init_reason",
    "Serum.Props.init_too_small"
   ],
   "note": "exact answer of every refusal"
  },
  {
   "property": "C99",
   "status": "proved",
   "theorems": [
    "Serum.Props.settling_can_wait",
    "Serum.Props.settle_first_or_last",
    "Serum.Props.settlements_commute"
   ],
   "note": "Equality of the two final states for one instruction (settling_can_wait), for sequences of any length (settle_first_or_last) and for two settlements."
  }
 ]
}
