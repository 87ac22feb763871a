{"id": "C01", "title": "Taker fee is the advertised rate rounded up", "statement": "For every fee tier and every traded quote amount, the taker fee charged is the smallest integer not below amount x rate, where rate is the tier's tenth-of-basis-point rate truncated to 64 fractional bits; it therefore never exceeds the exact decimal fee by 1 or more and falls short of it by less than one unit; and a positive trade always pays a positive fee.", "quantifier": "all fee tiers, all u64 quote amounts", "why_tests_cant": "2^64 amounts per tier; rounding errors only show at particular residues", "anchors": ["dex/src/fees.rs:FeeTier::taker_fee", "dex/src/fees.rs:FeeTier::taker_rate", "dex/src/fees.rs:fee_tenth_of_bps"]}
{"id": "C02", "title": "A buyer's fee always fits in what was locked, and no budget is left idle", "statement": "If a buyer locks q quote units, the engine lets it spend m = q with the fee removed; then for every amount up to m the amount plus its taker fee is at most q, and at m itself at most one unit of q remains unused.", "quantifier": "all fee tiers, all u64 budgets, all spend amounts within the budget", "why_tests_cant": "sampled by a proptest in the repo; a single counterexample would make an order panic or let it underpay", "anchors": ["dex/src/fees.rs:FeeTier::remove_taker_fee", "dex/src/fees.rs:FeeTier::taker_fee", "dex/src/matching.rs:OrderBookState::new_bid"]}
{"id": "C03", "title": "Net fees are positive", "statement": "On every trade of at least one quote unit the taker fee strictly exceeds the sum of the maker rebate and the referrer share (one fifth of the fee), for every combination of taker and maker tiers; the maker rebate is in fact always zero; the exchange never loses money on a fill.", "quantifier": "all pairs of tiers, all u64 amounts >= 1", "why_tests_cant": "the repo only samples it with proptest", "anchors": ["dex/src/fees.rs:FeeTier::maker_rebate", "dex/src/fees.rs:referrer_rebate", "dex/src/fees.rs:positive_net_fees"]}
{"id": "C04", "title": "Holding more fee tokens never raises the fee", "statement": "For a fixed market and trade, a trader holding more SRM, or any MSRM, is never charged a higher taker fee than one holding less; designated stable markets always use the lowest rate.", "quantifier": "all markets, all pairs of SRM/MSRM balances, all amounts", "why_tests_cant": "thresholds and rounding interact over a 2^192 input space", "anchors": ["dex/src/fees.rs:FeeTier::from_srm_and_msrm_balances", "dex/src/state.rs:MarketState::load_fee_tier"]}
{"id": "C05", "title": "Request/event queue is a bounded FIFO", "statement": "A queue of any capacity driven by any sequence of push, pop, peek and iterate behaves exactly like a first-in-first-out list bounded by that capacity: pushes fail only when it is full and then hand the value back and change nothing, pops return the oldest item, and iteration yields every stored item oldest first.", "quantifier": "all capacities, all item types, all operation sequences, all head positions including wrap-around", "why_tests_cant": "wrap-around of the ring index depends on unbounded histories", "anchors": ["dex/src/state.rs:Queue::push_back", "dex/src/state.rs:Queue::pop_front", "dex/src/state.rs:Queue::peek_front", "dex/src/state.rs:Queue::iter", "dex/src/state.rs:Queue::full"]}
{"id": "C06", "title": "Reverting queue pushes undoes exactly the last ones", "statement": "After any history, pushing n items and then reverting to the previous length restores the queue's contents and its sequence counter; asking to revert to a length greater than the current one is rejected.", "quantifier": "all queue states, all n, all pushed items", "why_tests_cant": "depends on head position and history", "anchors": ["dex/src/state.rs:Queue::revert_pushes"]}
{"id": "C07", "title": "Order book storage behaves like a sorted map", "statement": "A book side of any size driven by any sequence of insert, remove-by-id, remove-min, remove-max and quantity updates always holds exactly the orders an ideal map from 128-bit order id to order would hold: an inserted order is found again with the same contents, a removed one is gone, no other order is lost, duplicated or altered, and inserting an existing id replaces that order only.", "quantifier": "all capacities, all 128-bit keys, all operation sequences", "why_tests_cant": "the tree shape, free-list order and bump pointer depend on the whole history", "anchors": ["dex/src/critbit.rs:Slab::insert_leaf", "dex/src/critbit.rs:Slab::remove_by_key", "dex/src/critbit.rs:Slab::remove_min", "dex/src/critbit.rs:Slab::remove_max", "dex/src/critbit.rs:Slab::insert", "dex/src/critbit.rs:Slab::remove"]}
{"id": "C08", "title": "Best-order lookup is correct", "statement": "At every reachable state the minimum lookup returns the order with the numerically smallest id and the maximum lookup the largest, and they return nothing exactly when the side is empty.", "quantifier": "all reachable book states", "why_tests_cant": "crit-bit descent correctness depends on tree shape", "anchors": ["dex/src/critbit.rs:Slab::find_min", "dex/src/critbit.rs:Slab::find_max", "dex/src/critbit.rs:Slab::find_min_max"]}
{"id": "C09", "title": "Book capacity never leaks and insertion fails cleanly", "statement": "Whatever the history of insertions and removals, a book side with N nodes accepts a new order whenever it holds fewer than floor((N+1)/2) orders, and an insertion refused for lack of space leaves the set of orders unchanged; the minimum account size accepted at market creation guarantees at least 101 resting orders per side.", "quantifier": "all capacities, all operation histories", "why_tests_cant": "a leaked node shows up only after many interleaved operations", "anchors": ["dex/src/critbit.rs:Slab::insert", "dex/src/critbit.rs:Slab::remove", "dex/src/critbit.rs:Slab::insert_leaf", "dex/src/critbit.rs:Slab::assert_minimum_capacity"]}
{"id": "C10", "title": "Owner scan finds only, and with enough budget all, of an owner's orders", "statement": "Scanning a book side for an owner returns ids of resting orders of that owner without duplicates, consumes at most its budget of visited nodes, and if the budget covers the whole tree returns every such order.", "quantifier": "all reachable book states, all owners, all budgets", "why_tests_cant": "traversal order and budget accounting depend on tree shape", "anchors": ["dex/src/critbit.rs:Slab::find_by", "dex/src/matching.rs:OrderBookState::remove_all"]}
{"id": "C11", "title": "Order ids encode price-time priority and are unique", "statement": "For any two accepted orders of one side of a market (fewer than 2^64 orders in total) the ids differ; on the ask side the order with lower price, or equal price and placed earlier, has the smaller id; on the bid side the order with higher price, or equal price and placed earlier, has the larger id; the price is recovered exactly from the id; and ids of opposite sides differ too while the market has numbered at most 2^63 orders (beyond that a bid and an ask at one price can share an id).", "quantifier": "all prices, all pairs of sequence numbers, all histories of fewer than 2^64 orders", "why_tests_cant": "quantifies over pairs of orders anywhere in an unbounded history", "anchors": ["dex/src/state.rs:RequestQueueHeader/gen_order_id", "dex/src/matching.rs:OrderBookState::find_bbo", "dex/src/matching.rs:extract_price_from_order_id"]}
{"id": "C12", "title": "Open-orders slots never collide", "statement": "Adding an order to an open-orders account uses a slot that was free, records id, side and client id there and leaves the other 127 slots untouched; it fails exactly when all 128 are in use; removing an order frees exactly its slot; listing in-use slots yields each once.", "quantifier": "all reachable bitmap states, all ids", "why_tests_cant": "2^128 bitmaps", "anchors": ["dex/src/state.rs:OpenOrders::add_order", "dex/src/state.rs:OpenOrders::remove_order", "dex/src/state.rs:OpenOrders::iter_filled_slots", "dex/src/state.rs:OpenOrders::slot_side"]}
{"id": "C13", "title": "Events survive encoding", "statement": "Every fill or out event written to the event queue is read back as the same event, field for field; and reading rejects every flag byte that writing cannot produce, the sole exception being an out event whose out bit is missing (a zeroed slot reads as an empty out event). In the stored record the flag byte is 1 for a fill or 2 for an out event, plus 4 for a bid, 8 for a maker and 16 if funds are to be released; a fill has its fee tier and fee in their fields, an out event zeros.", "quantifier": "all event values; all 256 flag bytes", "why_tests_cant": "flag packing over all field values", "anchors": ["dex/src/state.rs:Event::new", "dex/src/state.rs:Event::as_view"]}
{"id": "C14", "title": "Requests survive encoding", "statement": "Every new-order or cancel request packed into a queue slot is decoded as the same request, and no flag byte with contradictory flags is accepted.", "quantifier": "all request values; all flag bytes", "why_tests_cant": "flag packing over all field values", "anchors": ["dex/src/state.rs:Request::new", "dex/src/state.rs:Request::as_view"]}
{"id": "C15", "title": "Instruction packing round-trips", "statement": "Decoding the bytes produced by encoding any market instruction that has a decodable form gives back the same instruction.", "quantifier": "all instruction values of every kind, including batches of any accepted length", "why_tests_cant": "unbounded field values and lists", "anchors": ["dex/src/instruction.rs:MarketInstruction::pack", "dex/src/instruction.rs:MarketInstruction::unpack"]}
{"id": "C16", "title": "Instruction decoding is strict", "statement": "A byte string is accepted only if its version is 0, its length is exactly the one its kind requires, its enum fields are in range and its price and quantity fields are non-zero; every accepted string is (up to the documented short new-order form and zero padding of client-id batches) the encoding of the instruction it decodes to, so no two different strings of the same kind and length decode to the same instruction.", "quantifier": "all byte strings", "why_tests_cant": "all byte strings of all lengths", "anchors": ["dex/src/instruction.rs:MarketInstruction::unpack", "dex/src/instruction.rs:NewOrderInstructionV3::unpack", "dex/src/instruction.rs:SendTakeInstruction::unpack"]}
{"id": "C17", "title": "Market account flags gate loading", "statement": "A market account is usable only if its flag word is exactly one of the permitted combinations; a disabled market is loadable only by the instructions that allow it; permissioned markets are recognised by one bit and never confused with unpermissioned ones.", "quantifier": "all 2^64 flag words", "why_tests_cant": "flag-space size", "anchors": ["dex/src/state.rs:MarketState::check_flags", "dex/src/state.rs:MarketStateV2::check_flags", "dex/src/state.rs:Market::load"]}
{"id": "C18", "title": "Limit price protection", "statement": "No order ever trades at a price worse than its limit: every lot bought by a bid with a limit costs at most the limit price before fees, and every lot sold by an ask yields at least its limit price before fees, whatever the book contains.", "quantifier": "all book states, all orders, all match limits", "why_tests_cant": "book states and multi-level sweeps are unbounded", "anchors": ["dex/src/matching.rs:OrderBookState::new_bid", "dex/src/matching.rs:OrderBookState::new_ask"]}
{"id": "C19", "title": "Execution is in price-time priority", "statement": "The resting orders an incoming order trades with are exactly a prefix of the opposite side taken in best-price-first, oldest-first order; an order with better priority is never skipped, and only the last one touched may be left partially filled.", "quantifier": "all book states, all incoming orders", "why_tests_cant": "depends on unbounded book state", "anchors": ["dex/src/matching.rs:OrderBookState::new_order", "dex/src/matching.rs:OrderBookState::new_bid", "dex/src/matching.rs:OrderBookState::new_ask"]}
{"id": "C20", "title": "The book never crosses", "statement": "In every reachable state of a market the best bid price is strictly below the best ask price.", "quantifier": "all histories of all instructions", "why_tests_cant": "invariant over unbounded histories", "anchors": ["dex/src/matching.rs:OrderBookState::new_order", "dex/src/matching.rs:OrderBookState::new_bid", "dex/src/matching.rs:OrderBookState::new_ask"]}
{"id": "C21", "title": "Order types mean what they say", "statement": "An immediate-or-cancel order never leaves anything on the book; a post-only order never trades; only a limit or post-only order can rest and only its own unfilled remainder does.", "quantifier": "all book states, all orders", "why_tests_cant": "depends on unbounded book state", "anchors": ["dex/src/matching.rs:OrderBookState::new_order"]}
{"id": "C22", "title": "Self-trade handling", "statement": "An order never produces a fill against a resting order of the same open-orders account; with abort-transaction a would-be self trade rejects the whole instruction; with cancel-provide the resting order is cancelled and its funds returned; with decrement-take both sides are reduced by the same quantity and the freed funds returned.", "quantifier": "all book states, all orders, all three behaviours", "why_tests_cant": "depends on unbounded book state", "anchors": ["dex/src/matching.rs:OrderBookState::new_bid", "dex/src/matching.rs:OrderBookState::new_ask", "dex/src/instruction.rs:SelfTradeBehavior"]}
{"id": "C23", "title": "An order never exceeds its size or budget", "statement": "The base quantity a new order trades plus rests is at most its maximum base quantity, and the quote a bid spends on trades, fees and resting commitment is at most the quote it locked; everything locked and not used is returned to its owner's free balance in the same instruction.", "quantifier": "all book states, all orders, all match limits", "why_tests_cant": "multi-step matching over unbounded books", "anchors": ["dex/src/matching.rs:OrderBookState::new_bid", "dex/src/matching.rs:OrderBookState::new_ask", "dex/src/state.rs:State::process_new_order_v3"]}
{"id": "C24", "title": "Matching work is bounded by the caller's limit", "statement": "Processing an order touches at most limit resting orders of the opposite side, always terminates with the order fully resolved (filled, resting or returned), and never leaves an unresolved remainder.", "quantifier": "all book states, all orders, all limits", "why_tests_cant": "termination over unbounded book states", "anchors": ["dex/src/matching.rs:OrderBookState::new_order", "dex/src/state.rs:State::process_new_order_v3"]}
{"id": "C25", "title": "Eviction from a full book only hits the worst order and refunds it", "statement": "When a new resting order does not fit, exactly the worst-priority order of that side is removed and an event is queued that returns precisely what that order had locked to its owner; the new order then rests.", "quantifier": "all full book states, all orders", "why_tests_cant": "needs full books of arbitrary size", "anchors": ["dex/src/matching.rs:OrderBookState::new_bid", "dex/src/matching.rs:OrderBookState::new_ask"]}
{"id": "C26", "title": "Base-token conservation", "statement": "In every reachable state the market's recorded base deposits equal the sum over all open-orders accounts of free base, base locked in resting asks, base due from unprocessed bid fills and base awaiting release by unprocessed out events.", "quantifier": "all histories of all instructions by all users", "why_tests_cant": "global invariant over unbounded histories", "anchors": ["dex/src/state.rs:State::process_new_order_v3", "dex/src/state.rs:State::process_consume_events", "dex/src/state.rs:State::process_settle_funds", "dex/src/state.rs:State::process_send_take"]}
{"id": "C27", "title": "Quote-token conservation", "statement": "In every reachable state the market's recorded quote deposits equal the sum over all open-orders accounts of free quote, quote locked in resting bids, quote due from unprocessed ask fills and quote awaiting release; fees taken from traders are accounted exactly in accrued fees plus accrued referrer rebates.", "quantifier": "all histories of all instructions by all users", "why_tests_cant": "global invariant over unbounded histories", "anchors": ["dex/src/matching.rs:OrderBookState::new_bid", "dex/src/matching.rs:OrderBookState::new_ask", "dex/src/state.rs:State::process_consume_events", "dex/src/state.rs:State::process_settle_funds"]}
{"id": "C28", "title": "Vault solvency", "statement": "In every reachable state the base vault holds at least the recorded base deposits and the quote vault at least the recorded quote deposits plus accrued fees plus accrued referrer rebates, even if other people donate tokens, wallets alias vaults, or both vaults are one account; no sequence of instructions can withdraw what belongs to another user.", "quantifier": "all histories of all instructions, all token-account aliasing", "why_tests_cant": "global invariant over unbounded histories", "anchors": ["dex/src/state.rs:State::process_settle_funds", "dex/src/state.rs:State::process_sweep_fees", "dex/src/state.rs:State::process_send_take", "dex/src/state.rs:send_from_vault"]}
{"id": "C29", "title": "Account totals are backed", "statement": "In every reachable state each open-orders account's total of each token equals, modulo 2^64, its free amount plus what its resting orders lock plus what its unprocessed fills have yet to pay out plus what unprocessed out events have yet to release; and free never exceeds what the market owes it.", "quantifier": "all histories", "why_tests_cant": "per-account invariant over unbounded histories", "anchors": ["dex/src/state.rs:OpenOrders", "dex/src/state.rs:State::process_consume_events"]}
{"id": "C30", "title": "Every open slot is exactly one live order", "statement": "In every reachable state each in-use slot of an open-orders account matches exactly one order that is either resting on the book side recorded for the slot or awaiting a final out event in the queue, and every resting order and every queued event refers to an in-use slot of its owner holding the same id and side.", "quantifier": "all histories", "why_tests_cant": "relational invariant over unbounded histories", "anchors": ["dex/src/state.rs:OpenOrders", "dex/src/state.rs:State::process_consume_events", "dex/src/matching.rs:OrderBookState::cancel_leaf_node"]}
{"id": "C31", "title": "The crank can always make progress", "statement": "In every reachable state with a non-empty event queue, processing the oldest event succeeds when its owner's account is supplied, as long as that account's true totals fit in 64 bits; nobody can place, cancel, settle or close their way into a queue that can never be drained.", "quantifier": "all histories", "why_tests_cant": "liveness over every reachable state", "anchors": ["dex/src/state.rs:State::process_consume_events", "dex/src/state.rs:CloseOpenOrdersArgs"]}
{"id": "C32", "title": "Owners can always cancel a resting order and get its funds", "statement": "In every reachable state in which the event queue has room, the owner's cancel of a resting order succeeds (also on a disabled market), removes exactly that order, moves exactly the amount it had locked from locked to free, and queues the out event. The one exception is an account for which the amounts the market holds for it no longer fit in 64 bits.", "quantifier": "all histories, all resting orders", "why_tests_cant": "must hold in every reachable state", "anchors": ["dex/src/matching.rs:OrderBookState::cancel_order_v2", "dex/src/matching.rs:OrderBookState::cancel_leaf_node", "dex/src/state.rs:State::process_cancel_order_v2"]}
{"id": "C33", "title": "Nobody else can cancel or spend", "statement": "A cancel, settle, close or order placement on an open-orders account succeeds only if the account's recorded owner signed; prune succeeds only with the market's prune authority's signature; no instruction changes any other user's balances except by filling or evicting their resting orders at their own price, or delivering their own queued events.", "quantifier": "all instructions, all account lists, all reachable states", "why_tests_cant": "adversarial account lists are unbounded", "anchors": ["dex/src/state.rs:Market::load_orders_mut", "dex/src/state.rs:account_parser", "dex/src/state.rs:State::process"]}
{"id": "C34", "title": "Settlement pays exactly the free balances, once", "statement": "A successful settle transfers exactly the account's free base and quote to the given wallets, lowers totals and market deposits by the same amounts and leaves zero free; an immediate second settle transfers nothing; in every reachable state the transfer out of the vaults cannot fail for lack of vault funds.", "quantifier": "all histories", "why_tests_cant": "depends on solvency invariant over histories", "anchors": ["dex/src/state.rs:State::process_settle_funds"]}
{"id": "C35", "title": "Immediate take honours its limits", "statement": "A successful send-take never spends more than its stated maxima, delivers at least its stated minimum, never trades beyond its limit price, never rests, and moves exactly the traded amounts plus fee between the signer's wallets and the vaults; otherwise nothing changes.", "quantifier": "all book states, all arguments", "why_tests_cant": "multi-level sweeps over unbounded books", "anchors": ["dex/src/state.rs:State::process_send_take", "dex/src/instruction.rs:SendTakeInstruction"]}
{"id": "C36", "title": "Closing an account is safe", "statement": "An open-orders account can be closed only by its owner, only with no in-use slots and zero totals; in every reachable state such an account has no resting orders and no unprocessed events, so closing strands no base or quote funds and cannot block the event queue, even if the address is later reused.", "quantifier": "all histories", "why_tests_cant": "needs the global slot/event invariant", "anchors": ["dex/src/state.rs:State::process_close_open_orders", "dex/src/state.rs:CloseOpenOrdersArgs"]}
{"id": "C37", "title": "Disabling a market stops trading but not exits", "statement": "Once a market is disabled no instruction can place, match or take orders in it ever again, while cancel, settle, event processing and closing remain available; only the disable authority can disable.", "quantifier": "all histories after disabling", "why_tests_cant": "temporal property over all continuations", "anchors": ["dex/src/state.rs:State::process_disable_market", "dex/src/state.rs:Market::load", "dex/src/state.rs:MarketState::check_enabled"]}
{"id": "C38", "title": "Fee sweep takes only fees", "statement": "A fee sweep succeeds only with the sweep authority's signature, transfers exactly the accrued fees, zeroes them and touches no deposits, rebates or user balances.", "quantifier": "all reachable states", "why_tests_cant": "needs solvency in every reachable state", "anchors": ["dex/src/state.rs:State::process_sweep_fees"]}
{"id": "C39", "title": "Prune returns the pruned orders' funds", "statement": "A prune by the prune authority removes only orders of the named account, credits the account with exactly what those orders had locked, and queues one out event each; it cannot move funds to anyone else.", "quantifier": "all reachable states, all limits", "why_tests_cant": "depends on unbounded book state", "anchors": ["dex/src/state.rs:State::process_prune", "dex/src/matching.rs:OrderBookState::remove_all"]}
{"id": "C40", "title": "Batch cancel and replace touch only the named client ids", "statement": "A batch cancel removes exactly the resting orders of the account whose client id is in the list and skips those no longer on the book; a replace first does that for the client ids of its new orders and then places the new orders in sequence, all or nothing.", "quantifier": "all reachable states, all id lists", "why_tests_cant": "depends on unbounded state", "anchors": ["dex/src/state.rs:State::process_cancel_orders_by_client_ids", "dex/src/state.rs:State::process_replace_orders_by_client_ids"]}
{"id": "C41", "title": "Order deadlines", "statement": "A new order with a deadline earlier than the current time is rejected and changes nothing; without a deadline it is never rejected for time.", "quantifier": "all clocks and deadlines", "why_tests_cant": "all i64 pairs", "anchors": ["dex/src/state.rs:State::process_new_order_v3"]}
{"id": "C42", "title": "Referrer rebates are never over-paid", "statement": "In every reachable state the market's recorded referrer rebates are at least the sum of what all open-orders accounts are recorded to be owed plus what queued taker fills will add, so paying one account's rebate can never underflow the market's record or use other users' money.", "quantifier": "all histories", "why_tests_cant": "global invariant over histories", "anchors": ["dex/src/state.rs:State::process_settle_funds", "dex/src/state.rs:State::process_consume_events", "dex/src/matching.rs:OrderBookState::new_bid"]}
{"id": "C43", "title": "Crank batching does not matter", "statement": "Processing events with limit a and then limit b has the same effect as processing with limit a+b, given the same accounts; no event is applied twice or skipped.", "quantifier": "all queue states, all splits", "why_tests_cant": "all states and splits", "anchors": ["dex/src/state.rs:State::process_consume_events"]}
{"id": "C44", "title": "Crank authority is enforced", "statement": "On a market that requires a crank authority the open crank instruction always fails and the permissioned one succeeds only with that authority's signature; on other markets the permissioned one always fails.", "quantifier": "all states, all account lists", "why_tests_cant": "adversarial account lists", "anchors": ["dex/src/state.rs:ConsumeEventsArgs", "dex/src/state.rs:Market::consume_events_authority"]}
{"id": "C45", "title": "Failed instructions change nothing and legacy ones always fail", "statement": "The removed instructions (old new-order, old cancel) fail in every state, the old match instruction has no effect, and any failing instruction leaves balances, books, queues and accounts as they were.", "quantifier": "all states, all arguments", "why_tests_cant": "all states", "anchors": ["dex/src/state.rs:State::process"]}
{"id": "C46", "title": "Fresh markets satisfy every invariant", "statement": "Any market successfully created starts empty with zero counters, a usable event queue of at least 128 entries and book sides of at least 201 nodes, whatever accounts and sizes were supplied.", "quantifier": "all initialization arguments", "why_tests_cant": "all account sizes", "anchors": ["dex/src/state.rs:State::process_initialize_market", "dex/src/state.rs:InitializeMarketArgs"]}
{"id": "C47", "title": "Pool fee split adds up", "statement": "For every accepted fee rate and token quantity the liquidity, initializer and referrer shares are well defined, sum to the total fee, the total is the rate times the quantity rounded up and never exceeds the quantity, and the protocol share is at least one basis point of the quantity.", "quantifier": "all rates in range, all quantities whose fee is below 2^63", "why_tests_cant": "2^84 inputs", "anchors": ["pool/src/context.rs:Fees::from_fee_rate_and_tokens"]}
{"id": "C48", "title": "Pool creations and redemptions never dilute holders", "statement": "For a pool whose vaults are distinct and wholly its own: creating pool tokens always costs at least, and redeeming returns at most, the exact proportional share of every asset; so a create followed by a redeem of the same quantity never profits, and after any sequence of such operations and of token transfers, burns and donations by others, assets per pool token never decrease in any vault.", "quantifier": "all pool states, all quantities, all operation sequences", "why_tests_cant": "rounding over unbounded histories", "anchors": ["pool/src/context.rs:get_simple_basket", "pool/src/pool.rs:process_creation", "pool/src/pool.rs:process_redemption"]}
{"id": "C49", "title": "Pool fee minting is exact", "statement": "On creation the tokens minted to user, liquidity provider, initializer and referrer sum to the requested quantity; on redemption the tokens burned plus the fees collected equal it; nothing else changes hands but the basket, priced at the exact share rounded in the pool's favour; a fee is waived only if the user's own account would receive it, except that the protocol's own account pays no fee at all. Swaps are refused, and the basket quoted for a creation is the basket charged.", "quantifier": "all quantities, all fee configurations", "why_tests_cant": "all inputs", "anchors": ["pool/src/context.rs:mint_tokens", "pool/src/context.rs:burn_tokens_and_collect_fees", "pool/src/context.rs:get_fees"]}
{"id": "C50", "title": "Permissioned proxy only relays what the user signed", "statement": "The permissioned-market proxy forwards a trading, cancel, settle or close instruction with the derived account as signer only if the user that the derived address is computed from signed the transaction; instructions outside its list are never relayed.", "quantifier": "all instruction data, all account lists", "why_tests_cant": "adversarial inputs", "anchors": ["dex/permissioned/src/proxy.rs:MarketProxy::run", "dex/permissioned/src/middleware.rs:OpenOrdersPda"]}
{"id": "C51", "title": "Account ownership assertion", "statement": "The assert-owner program succeeds exactly when it is given 32 bytes equal to the owner of its first account.", "quantifier": "all inputs", "why_tests_cant": "all byte strings", "anchors": ["assert-owner/src/lib.rs"]}
{"id": "C52", "title": "Client ids on book, queue and account agree", "statement": "In every reachable state every resting order and every queued event carries exactly the client id that its owner's open-orders account records for the order's slot, so cancelling by client id and reading events by client id mean the same order.", "quantifier": "all histories of all instructions by all users", "why_tests_cant": "global invariant over unbounded histories; three separately maintained copies of the id", "anchors": ["dex/src/state.rs:OpenOrders::add_order", "dex/src/matching.rs:OrderBookState::new_order", "dex/src/state.rs:State::process_consume_events"]}
{"id": "C53", "title": "Accounts load back exactly as stored", "statement": "The bytes the program writes into a market, open-orders, request-queue, event-queue or order-book account decode to exactly the value that was stored: every field at its offset, every queue slot and every tree node, whatever unused bytes trail the last whole item. A market loads iff its flags permit, and an open-orders account loads iff it is not closed, belongs to the market and, where an owner is required, to that owner.", "quantifier": "all markets, open-orders accounts, queues and slabs whose fields fit their widths; all trailing bytes", "why_tests_cant": "A field overlapping or truncating another shows only for particular values in particular slots; tests use a handful of accounts.", "anchors": ["dex/src/state.rs:30-760", "dex/src/state.rs:868-878", "dex/src/state.rs:1093-1184", "dex/src/critbit.rs:28-333"]}
{"id": "C54", "title": "No account is taken for another kind", "statement": "No byte string is accepted as two different kinds of account among market, open orders, request queue, event queue, bids and asks; a closed open-orders account and a blank account are accepted as none of them.", "quantifier": "all byte strings", "why_tests_cant": "Type confusion needs a byte string nobody thought to test; the claim is about every byte string and every pair of loaders.", "anchors": ["dex/src/state.rs:30-126", "dex/src/state.rs:156-198", "dex/src/state.rs:378-512"]}
{"id": "C55", "title": "A pool is created once and keeps its identity", "statement": "Initialize turns an account into a pool exactly when: the pool token's mint is under the derived authority, every vault token account can be spent by that authority, the protocol's fee account holds the pool token and is controlled by the fixed protocol fee owner alone, the accounts are rent exempt and the fee rate is at least 150 and below 1000000 parts per million; the pool then records exactly the accounts shown and moves no token. An initialised pool cannot be initialised again, an uninitialised account accepts no other request, and from then on mint, authority, nonce, fee vaults and custom parameters never change, the fee rate stays within its range, the mint stays under the pool's authority and a simple pool's record never changes at all.", "quantifier": "all requests, account lists, worlds and histories of pool requests and token instructions by anybody", "why_tests_cant": "acceptance is an equivalence over all requests and worlds; persistence is over unbounded histories of adversarial calls", "anchors": ["pool/src/lib.rs", "pool/src/context.rs", "pool/examples/admin-controlled/src/lib.rs", "pool/examples/simple/src/lib.rs"]}
{"id": "C56", "title": "Only the admin administers a pool, and a running pool's vaults are spent only by redemptions", "statement": "Each administrative instruction of an admin-controlled pool succeeds exactly when the recorded admin signs and its stated conditions hold, and has exactly the stated effect on the pool's record and delegates; none moves or mints tokens. Nothing else changes the record. A paused pool neither creates nor redeems nor quotes. As long as the vaults present at creation and those added later have no delegate or close authority, no vault of a running pool has a delegate able to spend, and tokens leave such a vault only in a redemption. Without that proviso the guarantee fails: removing an asset, unpausing and adding it back leaves a delegate on a running pool.", "quantifier": "all pools, requests, account lists and histories of requests and token instructions by anybody", "why_tests_cant": "who can act and where tokens can go is a claim about all callers, all account lists and all interleavings", "anchors": ["pool/examples/admin-controlled/src/lib.rs", "pool/src/context.rs", "pool/src/lib.rs"]}
{"id": "C57", "title": "The admin cannot dilute holders in an asset left in place", "statement": "Over any history of user requests, admin instructions and token instructions by others, in which the admin neither removes an asset nor approves a delegate for its vault, the vault's balance per pool token never decreases.", "quantifier": "all histories of an admin-controlled or simple pool, all assets with distinct vaults held by the pool's authority", "why_tests_cant": "ratio invariant under rounding over unbounded histories with adversarial admin and users", "anchors": ["pool/examples/admin-controlled/src/lib.rs", "pool/src/context.rs:process_creation", "pool/src/context.rs:process_redemption"]}
{"id": "C58", "title": "Pool tokens can be created and redeemed by whoever has what it takes", "statement": "A request to redeem n pool tokens of a pool that is not paused succeeds whenever the user signs, holds n tokens, the accounts named belong to the pool and are distinct, unfrozen and have room, and amounts stay below 2^63; a request to create n tokens succeeds whenever moreover the user holds the rounded-up share of each vault. Both then have exactly the effect described in C48 and C49, so nothing a third party does to the pool's books can lock funds in.", "quantifier": "all pools, worlds, account lists and amounts", "why_tests_cant": "liveness for all reachable amounts: fee computation, rounding, burn, mint and transfers must never abort in between", "anchors": ["pool/src/context.rs:process_creation", "pool/src/context.rs:process_redemption", "pool/src/pool.rs", "pool/examples/simple/src/lib.rs"]}
{"id": "C59", "title": "Every account can leave with everything that belongs to it", "statement": "From every reachable state of a market, also a disabled one, the owner of an open-orders account (together with the crank authority if the market has one) can send a sequence of packed instructions, each naming at most ten accounts and at most one per queued event, two per own order and two more, after which the account is closed, has no order on either book and no event in the queue, and its whole claim - free balances, balances behind resting orders, amounts in queued events, referrer rebates - has been paid exactly to the wallets named, while nobody else's claim changes except by fills already in the queue.", "quantifier": "all reachable states, all open accounts whose holdings fit in 64 bits, all wallets the token program accepts", "why_tests_cant": "liveness from every reachable state: needs an unbounded sequence of cranks and cancels, over any book and queue, none of which may abort", "anchors": ["dex/src/state.rs:process_consume_events", "dex/src/state.rs:process_cancel_order_v2", "dex/src/state.rs:process_settle_funds", "dex/src/state.rs:process_close_open_orders"]}
{"id": "C60", "title": "The documented account flags are the whole truth", "statement": "For every instruction, in every state: the outcome (result or error, and new state) depends on signatures only at the positions the instruction's documentation marks [signer]; success implies that every account marked [signer] signed; and an account that was changed in any way (market header, books, queues, open orders, token balances) was given at a position marked [writable]. The documentation is wrong for two accounts, the open-orders account of Prune and the owner of SendTake; the first is shown by a reachable counterexample.", "quantifier": "all states, all instructions, all account lists", "why_tests_cant": "a test can show that one missing signature is refused; that no other signature matters and nothing undocumented is ever written is a statement about all account lists and states", "anchors": ["dex/src/instruction.rs:MarketInstruction", "dex/src/state.rs:account_parser", "dex/src/state.rs:State::process"]}
{"id": "C61", "title": "The client's instruction builders ask for the right accounts and do what their arguments say", "statement": "Every call made by a builder of the client library (new_order, cancel_order, the cancels by client id, settle_funds, consume_events with and without authority, sweep_fees, prune, send_take, close_open_orders, init_open_orders, disable_market, match_orders) (a) can only succeed if every account it marks as signer signed, and any two transactions carrying those signatures have the same outcome; (b) marks as writable every account it changes; (c) if it succeeds, has exactly the effect on the accounts named by the builder's arguments: the order placed, trade made, order cancelled, balance paid or event delivered is the one the arguments describe. initialize_market creates exactly the market its arguments describe, except that an authority without its predecessor is dropped. Conversely, whatever any of these instructions does with any list of accounts, its builder does too, given the market's own accounts and the others in their documented roles, with the same signatures (match_orders aside, which does nothing). In every reachable state the owner can cancel, settle and close with these builders, and the crank can deliver.", "quantifier": "all builders and arguments in the range of their Rust types, all signer sets, all reachable states", "why_tests_cant": "the builders' account order must agree with the processor's parser for every instruction and optional account, and the flags must suffice in every state; one wrong flag shows only in states where that account changes", "anchors": ["dex/src/instruction.rs:new_order", "dex/src/instruction.rs:cancel_order", "dex/src/instruction.rs:settle_funds", "dex/src/instruction.rs:consume_events", "dex/src/instruction.rs:initialize_market", "dex/src/instruction.rs:prune"]}
{"id": "C62", "title": "The crank reads the queue correctly and empties it", "statement": "From the bytes of an event queue account the crank (dex/crank) obtains exactly the queued events, oldest first, and from a market account exactly the addresses stored in it, accepting the same accounts as the program; the number shown by its monitor is, for every market of every reachable chain, the number of events waiting. On a market without crank authority each of its ConsumeEvents calls succeeds in every reachable state in which amounts fit in 64 bits, even if other transactions came in between, and delivers a prefix of the queue. A round of its loop delivers at least one event: as many as its workers may, or all, or as many as belong to the number of accounts a call may name; repeated rounds empty the queue. The single-shot command (consume_events_instruction) succeeds too, but delivers nothing, and leaves the state unchanged, exactly when 32 accounts with queued events sort before the owner of the first event. Markets with a crank authority are never served, nor by the loop markets whose request queue has room for less than 88 bytes. The crank's other commands build the same instructions as the library's builders.", "quantifier": "all account contents, all reachable states, all numbers of workers, events per worker and accounts, all transactions in between", "why_tests_cant": "whether the loop makes progress depends on where the queue wraps, on the order of the owners' keys and on how many owners there are; the stall needs 33 accounts in a particular order", "anchors": ["dex/crank/src/lib.rs:parse_event_queue", "dex/crank/src/lib.rs:consume_events_loop", "dex/crank/src/lib.rs:consume_events_instruction", "dex/crank/src/lib.rs:get_keys_for_market", "dex/crank/src/lib.rs:remove_dex_account_padding", "dex/crank/src/lib.rs:read_queue_length_loop"]}
{"id": "C63", "title": "list_market lists a market", "statement": "Unless none of the nonces 0..99 gives an address, the instruction sent by the crank's list_market is accepted by the program for the accounts it has just created, and afterwards these accounts hold an empty market with the given lot sizes and no authorities, with 11915 event slots and 909 nodes on each side of the book. The returned addresses are those stored in the market, and the crank can read its queues.", "quantifier": "all markets, mints, lot sizes, and all program address functions", "why_tests_cant": "the account sizes are literals that must satisfy all size, alignment and capacity checks of the program together", "anchors": ["dex/crank/src/lib.rs:list_market", "dex/crank/src/lib.rs:gen_listing_params", "dex/crank/src/lib.rs:create_dex_account", "dex/src/state.rs:process_initialize_market"]}
{"id": "C64", "title": "Statement of account", "statement": "Between any two states of a market's life there is a journal of deposits, trades, payouts, sweeps and forfeited rebates. Each line is backed by what happened: a deposit by tokens paid into the right vault from a wallet of the signing owner, a trade by the order resting at that moment, at its price and not beyond its size, with the fee of the taker's tier, a payout or sweep by the signature it needs and the tokens that left the vault. From the journal alone follow exactly the base, quote and rebates that belong to every account (free, behind resting orders or due from queued events) and the fees held. In particular, over a market's whole life an account gets out, or still owns, exactly what was paid in for it and what it got in trades less what it gave and its fees.", "quantifier": "all histories: any number of instructions by any senders, account removals and token instructions; every account", "why_tests_cant": "a test checks the balances of one scenario; double crediting or lost units that appear only in some interleaving of partial fills, self trades, evictions, cancels, crank batches and settlements break the books elsewhere", "anchors": ["dex/src/state.rs:process_new_order_v3", "dex/src/state.rs:process_send_take", "dex/src/state.rs:process_settle_funds", "dex/src/state.rs:process_consume_events", "dex/src/state.rs:process_sweep_fees", "dex/src/matching.rs:process_new_order"]}
{"id": "C65", "title": "A funded order goes through", "statement": "On an enabled market, in any state it can get into, an owner who names the market's accounts, signs, has a free order slot (or a fresh rent-exempt account on an open market), enough free balance and wallet funds, a deadline not passed, room for three events for every resting order it meets and two more, if it is set to abort meets none of its own, and whose amounts fit in 64 bits, can place any valid order: the instruction succeeds, whatever rests on the book and in whichever rounds it is matched, evicts, cancels its own orders or rests. It deposits exactly what the free balance does not cover. It meets at most as many orders as its limit says and, unless it decrements orders of its own account, at most as many as rest within its limit price, so with few orders in reach the largest limit is no hindrance.", "quantifier": "all reachable states, all valid NewOrderV3 instructions, all account lists and environments meeting the listed conditions", "why_tests_cant": "an order can panic or be refused in some round of matching for some book only: an overflow of proceeds, a full slab, a missing event slot; tests try a few books", "anchors": ["dex/src/state.rs:process_new_order_v3", "dex/src/matching.rs:new_order", "dex/src/matching.rs:new_bid", "dex/src/matching.rs:new_ask", "dex/src/state.rs:NewOrderV3Args::with_parsed_args"]}
{"id": "C66", "title": "A funded send-take goes through, or misses its minimum", "statement": "On an enabled market, in any state it can get into, a signer who names the market's accounts and two wallets of the right mints, with enough in the paying one and room in the receiving one, and with room for three events for every resting order it meets (at most its limit, and at most the orders within its limit price) and two more, can trade against the book straight from the wallets. What would be traded does not depend on the minimum asked for. If the trade gives at least the minimum (lots bought, or quote received after fees) the instruction succeeds with that trade; if not it is refused with the minimum-not-met error. There is no other outcome.", "quantifier": "all reachable states, all valid SendTake instructions, all account lists meeting the listed conditions", "why_tests_cant": "an exact minimum matters for every book, lot size and fee tier, and a panic can hide in any round of matching; tests try a few books", "anchors": ["dex/src/state.rs:process_send_take", "dex/src/state.rs:SendTakeArgs::with_parsed_args", "dex/src/matching.rs:new_order"]}
{"id": "C67", "title": "Many markets on one chain, in bytes", "statement": "However many markets are created and whatever instruction bytes and account lists anybody sends, every account the program owns is blank, or belongs to exactly one market, or is an open-orders account of exactly one market. Every account that passes as a market has queues and books that load and stand for a state of that market's own history, so every theorem about one market holds of it. On the bytes an instruction succeeds exactly when it succeeds on that state, fails with the same error otherwise, and leaves bytes that stand for the new state. An instruction that names no market fails.", "quantifier": "all chains reachable by any number of markets, instruction bytes, account lists, token instructions and changes outside the program", "why_tests_cant": "an account of one kind or one market passed off as another, for any combination of accounts and bytes of any length of history, cannot be tried out", "anchors": ["dex/src/state.rs:State::process", "dex/src/state.rs:Market::load", "dex/src/state.rs:MarketState::load_orders_mut", "dex/src/state.rs:strip_header"]}
{"id": "C68", "title": "Markets do not interfere", "statement": "Different markets share no account and (lot sizes positive) no vault. An instruction for one market, or that creates one, changes no byte of any account of another market, including its open-orders accounts, makes no account an open-orders account of another market, and takes no tokens from another market's vaults.", "quantifier": "all reachable chains, all instruction bytes and account lists, all pairs of markets", "why_tests_cant": "any account list may mix accounts of several markets in any positions; tests use one market", "anchors": ["dex/src/state.rs:State::process", "dex/src/state.rs:MarketState::load_orders_mut", "dex/src/state.rs:gen_vault_signer_key"]}
{"id": "C69", "title": "Only the accounts documented as writable are written", "statement": "Whatever bytes and accounts are sent, an instruction that succeeds changes the data or tokens only of accounts passed in positions that the documentation of the instruction marks writable, and changes the owner or the size of no account (lamports, which CloseOpenOrders moves, are in C92).", "quantifier": "all reachable chains, all instruction bytes and account lists", "why_tests_cant": "an absence of writes over all accounts of the chain and all instruction bytes", "anchors": ["dex/src/instruction.rs:MarketInstruction", "dex/src/state.rs:State::process"]}
{"id": "C70", "title": "Vaults cover what the bytes record, for every market", "statement": "On any chain, for every account that passes as a market (lot sizes positive) and any list of distinct addresses, the market's vaults hold at least the free balances recorded in those of them that pass as its open-orders accounts, plus everything behind the orders in its book accounts, plus accrued fees and rebates; even if both vaults are one account.", "quantifier": "all reachable chains, all markets on it, all lists of addresses", "why_tests_cant": "an account that passes as open-orders account without having been credited by this market, on any chain, would break it; tests cannot search all chains", "anchors": ["dex/src/state.rs:MarketState", "dex/src/state.rs:OpenOrders", "dex/src/state.rs:State::process"]}
{"id": "C71", "title": "Markets last, and accounts stay their owner's", "statement": "Whatever happens on the chain, an account that once passes as a market passes as that market for ever, with the same mints, vaults, queues, books, lot sizes, fee rate and authorities; only its running totals and the disabled bit change, and the bit is never taken back. An open-orders account that is not closed stays one of its market and belongs to the same owner after any step.", "quantifier": "all reachable chains, all later points of their histories", "why_tests_cant": "a statement about all futures of all chains", "anchors": ["dex/src/state.rs:State::process", "dex/src/state.rs:process_initialize_market", "dex/src/state.rs:MarketState::load_orders_mut"]}
{"id": "C72", "title": "Pools on bytes", "statement": "Every pool request and admin instruction has exactly one encoding and the entry point reads back exactly what was sent: no other bytes are accepted, none can be read as two messages, trailing bytes are refused; a name is accepted exactly if it is some text in UTF-8. An account holds no pool exactly if it is blank and a pool exactly if it starts with that pool's bytes; what is saved is read back and the account keeps its size. A call of the program with any bytes and accounts succeeds exactly if it names an account of the program, the data are a message, the message succeeds on the decoded pool (C47-C49, C55-C58) and the new record fits into the account; the account then holds the new record and the tokens have moved as on the decoded pool.", "quantifier": "all byte strings, account lists, pools and chains, both kinds of pool", "why_tests_cant": "all byte strings of any length; a non-canonical encoding or an accepted trailing byte is found only by looking at all of them", "anchors": ["pool/schema/src/schema.rs:80-210", "pool/src/lib.rs:45-164", "pool/examples/admin-controlled/src/lib.rs:17-115"]}
{"id": "C73", "title": "Many pools on one chain", "statement": "However many pools are created and whatever bytes, accounts and token instructions anybody sends: each account of the pool program is at every moment blank or holds a pool that was once initialised as in C55 and has since led the life of a pool as in C55-C57, for ever the same. Different pools have different authorities and different pool tokens. A call that names one pool leaves the record and mint authority of every other pool as they are, mints none of its tokens and takes nothing from its vaults. Over whole histories with all pools and the token program, assets per pool token never fall in a vault that stays in its pool and is not delegated.", "quantifier": "all chains reachable by any number of pools, instruction bytes, account lists, token instructions and changes outside the program", "why_tests_cant": "interference between pools needs some combination of accounts of several pools in some position at some point of an unbounded history", "anchors": ["pool/src/lib.rs:45-164", "pool/src/context.rs:PoolContext::new", "pool/src/context.rs:mint_tokens"]}
{"id": "C74", "title": "Leaving a market on a chain of many", "statement": "On every reachable chain, with any number of markets and whatever anybody sent before: the owner of an open-orders account (together with the crank authority if the market has one) can send instructions in the form of bytes, each with at most ten accounts, at most one per queued event, two per own order and two more; all of them succeed, and afterwards the bytes of the accounts say that the open-orders account is closed, without orders and events, its whole claim was paid exactly to the wallets named, and what belongs to others is unchanged.", "quantifier": "all reachable chains, markets, open accounts whose holdings fit in 64 bits, all wallets the token program accepts", "why_tests_cant": "liveness from every reachable chain: an unbounded sequence of byte instructions, each decoding and re-encoding all accounts, none of which may fail", "anchors": ["dex/src/state.rs:2550-2680", "dex/src/state.rs:process_consume_events", "dex/src/state.rs:process_cancel_order_v2", "dex/src/state.rs:process_settle_funds", "dex/src/state.rs:process_close_open_orders"]}
{"id": "C75", "title": "Orders trade by the book and never stop early", "statement": "In every reachable market, a successful new order or send-take meets exactly the resting orders, and takes from each exactly the lots, that textbook price-time matching over the other side of the book prescribes: the best acceptable order first, the most lots that it has, that are wanted and (buying) that the remaining money pays for together with the fee; own orders are cancelled or decremented as asked. What rests on the book is exactly what the textbook says. It stops only if it is post-only, has met `limit` orders, has no lots left, finds no order within its limit price on the other side, or (buying) cannot pay one more lot at the best price and its fee.", "quantifier": "all reachable states, all new orders and send-takes that succeed", "why_tests_cant": "the outcome is fixed for every book, order type, self-trade mode, limit, budget and fee tier at once, including every way of stopping early", "anchors": ["dex/src/matching.rs:OrderBookState::new_order", "dex/src/matching.rs:new_bid", "dex/src/matching.rs:new_ask", "dex/src/state.rs:process_new_order_v3", "dex/src/state.rs:process_send_take"]}
{"id": "C76", "title": "Depth on the book can be had", "statement": "An order that is not post-only, meets none of its sender's own orders, has a large enough limit of matches and (buying) brings at least the posted prices plus fees of what it would take, trades exactly the smaller of its size and the total quantity posted within its limit price, order by order from the best at each order's own price; nothing rests of an immediate-or-cancel order, and of a limit order exactly what was not to be had (buying: as far as the money left pays for it at the limit price). Whoever is funded for such an order can place it and gets the lots (or the price less fees) credited at once.", "quantifier": "all reachable states, all orders and send-takes satisfying the stated conditions", "why_tests_cant": "a closed form for sweeps over arbitrarily deep books at arbitrary prices with fees rounded fill by fill", "anchors": ["dex/src/matching.rs:new_bid", "dex/src/matching.rs:new_ask", "dex/src/fees.rs:remove_taker_fee", "dex/src/fees.rs:taker_fee"]}
{"id": "C77", "title": "A market can be emptied to the last unit", "statement": "From every state a market can get into, also a disabled one: if the owners of all open accounts (and the crank authority, if there is one) want to leave, there is a sequence of instructions signed by nobody else after which every account is closed with zero balances, both books and the event queue are empty and nothing is recorded as deposited. Each account's wallets have received exactly what belonged to it; these amounts add up to exactly the deposits recorded before, and the vaults have paid exactly that: fees and rebates together are unchanged. On an enabled market the sweep authority can have the accrued fees paid out in full at any time.", "quantifier": "all reachable states with any number of accounts, orders and queued events; any choice of wallets", "why_tests_cant": "the project's fuzz target checks this at the end of random runs only; a unit lost or double counted in some history, or an account that cannot be emptied after some interleaving, shows up only there", "anchors": ["dex/src/state.rs:process_settle_funds", "dex/src/state.rs:process_close_open_orders", "dex/src/state.rs:process_cancel_order_v2", "dex/src/state.rs:process_consume_events", "dex/src/state.rs:process_sweep_fees", "dex/fuzz/fuzz_targets/multiple_orders.rs"]}
{"id": "C78", "title": "The life of an order", "statement": "Between any state of a market and any later one there is a record of orders placed, trades made and lots dropped without a trade, each entry backed by what happened then (the instruction that ran, who signed it, the resting order met). The record explains both sides of the book completely, order by order and account by account: lots open now, traded and dropped are the lots open before plus those put on the book. So every order trades at its limit or better at once and at exactly its limit later, for its own account; never more than its size in total and, for a buyer, never beyond its budget with fees; ids are never reused; an order that is gone never trades or rests again; every trade and every resting order goes back to an order that was placed; and no account ever pays more than the budgets of its bids or sells more than the sizes of its asks.", "quantifier": "all reachable states, all later states by any sequence of instructions by anyone, all orders and accounts (fewer than 2^64 orders in total)", "why_tests_cant": "a lot traded twice, revived after a cancel, or an account charged beyond its limits over several partial fills by different takers depends on the interleaving; the fuzz target's per-account bounds are checked on random runs only", "anchors": ["dex/src/matching.rs:new_order", "dex/src/matching.rs:new_bid", "dex/src/matching.rs:new_ask", "dex/src/matching.rs:cancel_order_v2", "dex/src/state.rs:process_new_order_v3", "dex/src/state.rs:process_send_take", "dex/src/state.rs:process_prune", "dex/fuzz/fuzz_targets/multiple_orders.rs"]}
{"id": "C79", "title": "A more generous order never does worse", "statement": "Compare two orders the same sender could send in the same state. If they differ only in that one has a more generous limit price and allows more matches, that one meets the same resting orders first, in the same order and for the same lots, and then perhaps more. If it is also for at least as many lots and as much money, and meets none of its sender's own orders, it trades at least as many lots. The same holds for send-takes.", "quantifier": "all reachable states, all pairs of orders (or send-takes) that both succeed, all sizes, budgets, limits, prices, tiers", "why_tests_cant": "a test runs one order; monotonicity relates two runs over every book, and the budget path divides by prices and rounds fees at every maker", "anchors": ["dex/src/matching.rs:new_bid", "dex/src/matching.rs:new_ask", "dex/src/matching.rs:new_order", "dex/src/fees.rs:FeeTier::remove_taker_fee"]}
{"id": "C80", "title": "Splitting an order changes nothing but fee rounding", "statement": "An order that can sweep, sent whole or in any number of parts, leaves the side of the book it faces the same order by order and lot by lot, trades the same lots for the same quote value, and pays the same fees, or more by less than one unit for each part (for two parts: the same or exactly one more). Whole and parts may each be an order or a send-take, by anybody in the same fee tier, and between the parts anything may happen that leaves that side of the book as it is.", "quantifier": "all reachable states, all sizes and ways to split, all histories in between, all books, fee tiers and lot sizes, buying and selling", "why_tests_cant": "the split can fall inside any resting order; equality of the two final books is a relation between different executions", "anchors": ["dex/src/matching.rs:new_bid", "dex/src/matching.rs:new_ask", "dex/src/fees.rs:FeeTier::taker_fee"]}
{"id": "C81", "title": "Fee discounts only for one's own tokens", "statement": "Every order and send-take is charged, on each trade and to less than one unit, the rate the published schedule gives for the SRM or MSRM held in the one extra account it passes; that account must be an unfrozen token account owned by the signer. Without it the rate is the base rate (0.04%), which is the highest; a lower rate on a market not designated stable means the signer passed an account of their own with at least 100 SRM or one MSRM.", "quantifier": "all reachable states, all signers, account lists, orders and token ledgers", "why_tests_cant": "passing somebody else's account, a frozen one, one of another mint or several are adversarial inputs over all ledgers", "anchors": ["dex/src/state.rs:MarketState::load_fee_tier", "dex/src/fees.rs:FeeTier::from_srm_and_msrm_balances", "dex/src/state.rs:NewOrderV3Args::with_parsed_args", "dex/src/state.rs:SendTakeArgs::with_parsed_args"]}
{"id": "C82", "title": "Error numbers identify the failure", "statement": "The 32-bit number a failed transaction shows identifies what failed. Every named error code is recovered from its number and no two share one; the number of a failed assertion gives the source file and line and is never taken for a named code; two named failures that look alike to a client are the same failure.", "quantifier": "all error codes, all 32-bit numbers, all source files and line numbers", "why_tests_cant": "a collision anywhere among 2^32 numbers, or between packed file/line values and the named codes, would mislead a client; samples do not exclude it", "anchors": ["dex/src/error.rs:DexErrorCode", "dex/src/error.rs:AssertionError", "dex/src/error.rs:DexError"]}
{"id": "C83", "title": "A refusal gives a true reason", "statement": "Whenever an instruction on a market fails with a named reason, what that reason says is the case: InsufficientFunds means the money the order may need is more than the account's free balance plus what the payer can spend; OrderNotYours means the order belongs to another account; WouldSelfTrade means the order set to abort meets an order of its own sender; EventQueueFull, on an order, means that the queue has no room for three events for every order met and two more; TooManyOpenOrders, ClientIdNotFound, OrderNotFound, MinAmountNotMet and the wrong-account reasons likewise. Each instruction gives only the reasons in its table; everything else fails as an assertion, a panic or undecodable input.", "quantifier": "all reachable states, all instruction data, account lists, signers, ledgers", "why_tests_cant": "a test sees one failure at a time; that no state and input combination ever yields a misleading reason ranges over every failing execution", "anchors": ["dex/src/state.rs:State::process", "dex/src/state.rs:State::process_new_order_v3", "dex/src/state.rs:State::process_send_take", "dex/src/matching.rs:OrderBookState::cancel_order_v2", "dex/src/matching.rs:new_order", "dex/src/state.rs:MarketState::load_orders_mut"]}
{"id": "C84", "title": "Members of a permissioned market were admitted", "statement": "In every history of a permissioned market, whoever has an open-orders account, a resting order or a waiting event was admitted: at some earlier moment the account was opened by an InitOpenOrders that its owner and the market's open-orders authority both signed. Placing an order needs such an account and its owner's signature. (Send-takes need neither; see F28.)", "quantifier": "all reachable states of permissioned markets, all accounts, all instructions and signers", "why_tests_cant": "a test shows that one unauthorised opening is refused; that no sequence of instructions of any kind brings an unadmitted account into being ranges over all histories", "anchors": ["dex/src/state.rs:State::process_init_open_orders", "dex/src/state.rs:MarketState::load_orders_mut", "dex/src/state.rs:MarketState::open_orders_authority", "dex/src/state.rs:State::process_new_order_v3"]}
{"id": "C85", "title": "The example exchange relays only what its identity check allows", "statement": "Through the example exchange, opening, placing, cancelling, settling and closing need the identity token in front and are then exactly what the proxy library does with the remaining accounts, so everything proved of it holds. Prune and authorised cranks go through exactly if something other than the token stands in front and the authority named is the market's derived one; no signature is asked for. Other data changes nothing. Everything proved about the DEX holds of markets used through the exchange.", "quantifier": "all states, account lists, signers, instruction data, derived addresses", "why_tests_cant": "the layers reorder and strip accounts by position; that no account list makes a later layer sign or act for the wrong accounts is a statement about all lists", "anchors": ["dex/tests/permissioned/programs/permissioned-markets/src/lib.rs:Identity", "dex/permissioned/src/proxy.rs:MarketProxy::run", "dex/permissioned/src/middleware.rs:OpenOrdersPda"]}
{"id": "C86", "title": "An exchange market is used only through the exchange", "statement": "In every history of a market whose authorities are the exchange's derived addresses, with instructions sent to the DEX directly and through the exchange in any order: every open-orders account is derived from the market and a user's address and is its own owner; sent directly, no instruction opens an account, places, replaces or cancels an order, settles, closes or prunes; through the exchange, an instruction on an account has the signature of the user it was derived for.", "quantifier": "all mixed histories of direct and relayed instructions, all accounts, users, signers without the exchange's keys", "why_tests_cant": "the claim is that no interleaving of direct and relayed calls gets around the exchange; tests try single calls", "anchors": ["dex/tests/permissioned/programs/permissioned-markets/src/lib.rs:permissioned_markets", "dex/permissioned/src/middleware.rs:OpenOrdersPda", "dex/permissioned/src/middleware.rs:InitAccount", "dex/src/state.rs:State::process"]}
{"id": "C87", "title": "Whoever may, can", "statement": "In every reachable state DisableMarket, CloseOpenOrders and InitOpenOrders succeed exactly under stated conditions (who signs, market enabled, account open and empty, or zeroed, rent exempt and vouched for) with exactly the stated result. The prune authority of an enabled permissioned market can always prune an open account for whose orders the event queue has room, and a limit covering both books leaves the account without orders. The limit counts tree nodes, asks first: with no own asks and at least `limit` nodes of other asks in front, a prune finds none of the account's bids.", "quantifier": "all reachable states, account lists, signers, limits, books", "why_tests_cant": "that nothing else in the state (other orders, waiting events, balances, fees) can make an entitled instruction fail ranges over all reachable states", "anchors": ["dex/src/state.rs:State::process_disable_market", "dex/src/state.rs:State::process_close_open_orders", "dex/src/state.rs:State::process_init_open_orders", "dex/src/state.rs:State::process_prune", "dex/src/matching.rs:OrderBookState::remove_all", "dex/src/critbit.rs:Slab::find_by"]}
{"id": "C88", "title": "The engine is impartial", "statement": "What an order trades, at which prices, what it pays in fees and what rests of it depends only on its terms, its fee tier and how the side of the book it faces looks to it (price, size, own or not, best first). Who sends it, who the makers are, balances, waiting events, client ids, order ids and its own side of the book do not matter. An immediate-or-cancel order and a send-take with the same terms match the same orders for the same lots and leave the same book. Running the crank between changes nothing about what an order does.", "quantifier": "all pairs of reachable states (even of two markets), all orders, senders, books that look alike", "why_tests_cant": "it compares two executions from arbitrary pairs of states; tests run one history at a time", "anchors": ["dex/src/matching.rs:OrderBookState::new_order", "dex/src/matching.rs:OrderBookState::new_bid", "dex/src/matching.rs:OrderBookState::new_ask", "dex/src/state.rs:State::process_new_order_v3", "dex/src/state.rs:State::process_send_take", "dex/src/state.rs:State::process_consume_events"]}
{"id": "C89", "title": "A pool's quotes", "statement": "A pool answers GetBasket exactly if it gets the documented accounts, is not paused, has pool tokens in circulation and every share fits an i64; no signature is needed. The answer is the exact share of every vault, rounded up for a creation and down for a redemption, delivered by one unsigned call to the program owning the return buffer with offset 0 and bytes from which exactly this basket is read. A creation charges exactly what is quoted. A redemption of n pays exactly what is quoted for n less its fee, never more than quoted for n. The quotes for creating and redeeming the same quantity differ by at most one unit per asset, never in the user's favour.", "quantifier": "all pool states, account lists, balances, quantities", "why_tests_cant": "equivalence over all balances and quantities, and agreement of two code paths in every state", "anchors": ["pool/src/lib.rs:Pool::process_instruction", "pool/src/context.rs:PoolContext::new", "pool/src/context.rs:PoolContext::get_simple_basket", "pool/src/context.rs:RetbufAccounts::write_data", "pool/src/pool.rs:Pool::process_redemption"]}
{"id": "C90", "title": "Replacing an order, and cancelling it by its client id", "statement": "In every reachable state, the owner's cancel by a non-zero client id looks at one order only, that of the lowest slot in use with the id: if it rests, exactly that order is withdrawn; if it does not, the cancel fails with OrderNotFound, whether or not another order under the id rests; if no slot in use has the id, it fails with ClientIdNotFound. On an enabled market, replacing by client id goes through whenever the trader could place the new order counting the funds of the orders it withdraws (but not their slots): it withdraws exactly the account's resting orders under the id, then places the new order, and the wallet pays only what the account's free funds, those released included, do not cover. After a replacement in which the new order got a higher slot than one it replaced, cancelling by that client id is refused with OrderNotFound until the events are delivered.", "quantifier": "all reachable states, accounts, client ids and new orders", "why_tests_cant": "liveness and exact outcome in every reachable state, whatever slots, events and other orders there are", "anchors": ["dex/src/state.rs:process_cancel_order_by_client_id_v2", "dex/src/state.rs:process_replace_orders_by_client_ids", "dex/src/state.rs:OpenOrders::orders_with_client_ids", "dex/src/state.rs:OpenOrders::iter_filled_slots"]}
{"id": "C91", "title": "The program does not crash", "statement": "Whatever bytes and accounts are sent to a market in any reachable state, the program carries the instruction out or refuses it with an error; it never panics (no failed unwrap, expect, plain assert, array index or checked arithmetic), with these exceptions: the retired instructions NewOrder, NewOrderV2, CancelOrder and CancelOrderByClientId always panic; a replacement with fewer than eight accounts always panics; and panics are not excluded where amounts do not fit in 64 bits (what the account holds, with what an order may bring in; a send-take sell whose stated lots are 2^64 base units or more) or the book account has no room for any order. Cranking, sweeping, disabling, opening and closing never panic, and neither does a full event queue or a self-trade abort cause a panic in the middle of matching. Creating a market never panics either if its queues and books are accounts of their own, long enough for their headers.", "quantifier": "all byte strings, account lists, reachable states and clocks", "why_tests_cant": "absence of panics over every reachable book, queue and account state and every instruction; the unwraps are safe only because of invariants built up over the whole history", "anchors": ["dex/src/state.rs:State::process", "dex/src/matching.rs:OrderBookState::process_orderbook_request", "dex/src/matching.rs:OrderBookState::new_bid", "dex/src/matching.rs:OrderBookState::new_ask", "dex/src/matching.rs:OrderBookState::cancel_leaf_node", "dex/src/state.rs:process_consume_events", "dex/src/state.rs:process_settle_funds", "dex/src/state.rs:process_send_take", "dex/src/state.rs:process_initialize_market"]}
{"id": "C92", "title": "Rent deposits go back to the owner, and only when they close the account", "statement": "No instruction but CloseOpenOrders moves lamports. Closing succeeds exactly if the instruction names, in this order, an open account of the market without orders and funds, its signing owner, an account to pay to (not the account itself, unless it has no lamports; the sum must fit in 64 bits) and the market; then the whole balance of the account goes to that account, the lamports of all other accounts and the total stay as they were, and the account is marked as closed. Whatever happens on the chain, an open-orders account that is not closed keeps its owner and does not lose lamports, up to the moment when its owner signs its closing. Lamports that reach a closed account before the runtime deletes it stay there for ever.", "quantifier": "all reachable chains, any number of markets with positive lot sizes, all later histories, all balances, account lists (also with repeated accounts) and data", "why_tests_cant": "who can ever take lamports out of an account, over all histories and instructions; aliasing of the accounts named", "anchors": ["dex/src/state.rs:process_close_open_orders", "dex/src/state.rs:CloseOpenOrdersArgs::with_parsed_args", "dex/src/state.rs:State::process"]}
{"id": "C93", "title": "The bytes of every instruction are the published ones", "statement": "A byte string is accepted as a given instruction exactly if byte 0 is zero, bytes 1-4 are the number of the kind of instruction (0 to 20), the length is the one of that kind, and every field is the little-endian number at its fixed offset: sides are 0 (bid) and 1 (ask), order types 0 (limit), 1 (immediate or cancel), 2 (post only), self-trade behaviours 0 (decrement take), 1 (cancel provide), 2 (abort), each in four bytes; prices and maximum quantities are not zero; a new order has an optional 8-byte signed deadline at offset 51, absent meaning none; up to eight client ids from offset 5; up to eight replacement orders of 54 bytes from offset 13 after their count. The client library's encoding of any instruction is of this form.", "quantifier": "all byte strings and all instructions", "why_tests_cant": "round-trip tests accept any consistent encoding (two fields exchanged in both directions pass); agreement with the fixed layout has to hold for all byte strings and in both directions", "anchors": ["dex/src/instruction.rs:MarketInstruction::unpack", "dex/src/instruction.rs:MarketInstruction::pack", "dex/src/instruction.rs:NewOrderInstructionV3::unpack", "dex/src/instruction.rs:SendTakeInstruction::unpack", "dex/src/instruction.rs:NewOrderInstructionV1::unpack", "dex/src/instruction.rs:CancelOrderInstructionV2::unpack"]}
{"id": "C94", "title": "Account fields are at their published offsets", "statement": "Whenever the program accepts an account as a market, open-orders, event queue, request queue or book account, every field it works with is the little-endian number at a fixed offset from the start of the account: e.g. a market's deposits at 149 and 197, its lot sizes at 349 and 357, the authorities of a permissioned market from 381; an open-orders account's balances at 77-108, slot masks at 109 and 125, the order id of slot j at 141 + 16j, its client id at 2189 + 8j; event j at 37 + 88j; node j of a book at 45 + 72j with the kind of node in its first four bytes. Sizes are 388 or 1476 bytes for markets and 3228 for open orders; markets, queues and books start with `serum` and end with `padding`.", "quantifier": "all account contents the loaders accept, all slots, events and nodes", "why_tests_cant": "off-chain readers and cranks decode these accounts by offset; round-trip tests through the same structs cannot notice an exchanged or moved field, and the layout concerns every slot, event and node of accounts of any size", "anchors": ["dex/src/state.rs:MarketState", "dex/src/state.rs:MarketStateV2", "dex/src/state.rs:OpenOrders", "dex/src/state.rs:Event", "dex/src/state.rs:EventQueueHeader", "dex/src/state.rs:RequestQueueHeader", "dex/src/critbit.rs:SlabHeader", "dex/src/critbit.rs:LeafNode", "dex/src/critbit.rs:InnerNode"]}
{"id": "C95", "title": "No account gains or loses more than its orders allow", "statement": "In a market's whole life, for every open-orders account: base paid out to its owner plus base still belonging to it exceeds base paid in by at most the sizes of its bids; base paid in and not come back is at most the sizes of its asks; quote paid out plus quote still belonging to it exceeds quote paid in by at most the sizes of its asks, each lot at the ask's own price or the highest limit price of any bid placed before it; quote paid in and not come back is at most the budgets of its bids, and, if a quote lot is at least 100 units, at most size times limit price (or the budget if less) plus one per cent. These are the bounds the project's fuzz target computes from the list of orders.", "quantifier": "all histories of a market of any length, all accounts", "why_tests_cant": "the fuzz target checks these bounds on random short runs after everything has been settled; here they hold after every instruction of every history, with matching, self-trades, evictions, cancels, prunes, cranks, settlements and closing of accounts in any order", "anchors": ["dex/fuzz/fuzz_targets/multiple_orders.rs:get_max_possible_coin_gained", "dex/fuzz/fuzz_targets/multiple_orders.rs:get_max_possible_pc_spent", "dex/fuzz/fuzz_targets/multiple_orders.rs:get_max_possible_coin_spent", "dex/fuzz/fuzz_targets/multiple_orders.rs:get_max_possible_pc_gained", "dex/src/state.rs:State::process", "dex/src/matching.rs:OrderBookState::process_orderbook_request"]}
{"id": "C96", "title": "The event queue is a complete log that can be read after the fact", "statement": "From any state of a market to any later one: the queue's counter has grown (mod 2^64) by exactly the number of events written; the pending events are those pending before and those written, less those consumed; and the newest written events, consumed or not, can be read backwards from the slot before the first free one, as many as the account has slots. The events written tell the record of C78: the maker fills are exactly its trades in order, with the right account, id, base and quote units and no fee; the taker fills are exactly the trades made at once by the orders placed, their fees adding up to each order's fee; everything taken off the book is announced in order with its worth; and no event is about an order the record does not mention. So a client that polls the account before more events were written than it has slots reads exactly what happened.", "quantifier": "all reachable states and all later states, through any sequence of instructions", "why_tests_cant": "concerns every interleaving of writing, wrapping around and consuming; tests look at queues that have not wrapped around, right after the instruction that wrote them", "anchors": ["dex/src/state.rs:Queue::push_back", "dex/src/state.rs:Queue::pop_front", "dex/src/state.rs:EventQueueHeader", "dex/src/state.rs:Event::new", "dex/src/state.rs:Event::as_view", "dex/src/matching.rs:OrderBookState::process_orderbook_request", "dex/src/state.rs:State::process_consume_events"]}
{"id": "C97", "title": "Every market's life can be followed in the accounts' bytes", "statement": "Take any stretch of the chain's history, with any number of markets and whatever instruction bytes, account lists and token transfers anybody sends. If a market's bytes stand for a state of its history at the start, then at the end they stand for a later state of the same history; and every market on the chain goes back to a point at which its bytes stood for a new, empty market. So what is proved from a state of one market to a later one (C37, C64, C78, C95, C96) holds of the bytes. In particular, for a reader of a market's event queue account: the number at offset 29 grows (mod 2^64) by the number of events written, the one at 21 counts those pending, and the newest events are found at 37 + 88 * ((head + count - 1 - j) mod slots), each field at its fixed offset; they tell what happened on that market and nothing else. And no account of any market gains or loses more than its orders allow.", "quantifier": "all chains and histories of fewer than 2^61 steps, all markets on them with positive lot sizes", "why_tests_cant": "concerns unbounded histories of many markets in one token ledger; tests run one market in memory", "anchors": ["dex/src/state.rs:State::process", "dex/src/state.rs:Market::load", "dex/src/state.rs:Queue::push_back", "dex/src/state.rs:Event::new", "dex/src/state.rs:EventQueueHeader"]}
{"id": "C98", "title": "A refused market was refused for the first true fault", "statement": "Whatever accounts, sizes, tokens and parameters are given to InitializeMarket: it refuses exactly if a fault in a fixed list of twenty is present (or fewer than ten accounts are given), and its answer is that of the first such fault. RequestQueueEmpty, EventQueueTooSmall and SlabTooSmall mean that the queue or the book side has no room for one request, 128 events or 201 nodes, while all accounts are the program's, blank and aligned and both vaults good; conversely shrinking one such account of a good set below that size gives exactly that reason. A program error means that the nonce gives no vault signer or that the market's account is one of the queues; the same account given twice for a queue or a queue and a book side is a panic; all else is an assertion.", "quantifier": "all account lists, account contents and sizes, token ledgers, mints, nonces and parameters", "why_tests_cant": "a test tries one bad set of accounts; that no combination of faults gives a misleading reason ranges over all of them", "anchors": ["dex/src/state.rs:account_parser::InitializeMarketArgs::new", "dex/src/state.rs:State::process_initialize_market", "dex/src/critbit.rs:Slab::assert_minimum_capacity", "dex/src/state.rs:init_account_padding"]}
{"id": "C99", "title": "It does not matter when one settles", "statement": "Take a reachable market in which an open-orders account can be settled, and any sequence of successful instructions by others: orders, replacements, cancels, send-takes, cranks, prunes, settlements of other accounts, sweeps, disabling, opening and closing accounts. If the settlement would succeed at each moment of the sequence, then settling first and settling last end in exactly the same state: the same books, queue, accounts, market record and token balances; in particular every instruction of the sequence also succeeds after the settlement. Two accounts may be settled in either order. The sequence must not name the settled account, no payee may be one of the vaults, no fee discount may be read off a token account the settlement pays, and a sweep may be among it only if the settlement adds nothing to the fees (it names a referrer, or the account has no rebates).", "quantifier": "all reachable states, all settlements possible there, all sequences of valid instructions of any length and kind, all accounts, wallets and environments", "why_tests_cant": "the claim compares two executions for every interleaving with arbitrary other instructions in every reachable state", "anchors": ["dex/src/state.rs:State::process_settle_funds", "dex/src/state.rs:State::process_new_order_v3", "dex/src/state.rs:State::process_send_take", "dex/src/state.rs:State::process_consume_events", "dex/src/matching.rs:OrderBookState::process_orderbook_request"]}
{"id": "C100", "title": "It does not matter when the crank runs", "statement": "Take a reachable market with at least n queued events in which either crank instruction with limit n succeeds, and any sequence of other successful instructions (orders, replacements, cancels, send-takes, prunes, settlements, sweeps, disabling, opening and closing accounts; no cranks) that name none of the accounts the first n events belong to. Then the crank also succeeds at the end of the sequence, every instruction of the sequence also succeeds after the crank, and cranking first and cranking last end in exactly the same state: the same books, queue with its contents in the same memory cells, accounts, market record and token balances.", "quantifier": "all reachable states, all crank limits and account lists, all sequences of valid instructions of any length and kind other than cranks, all environments", "why_tests_cant": "the claim compares two executions for every interleaving with arbitrary other instructions in every reachable state", "anchors": ["dex/src/state.rs:State::process_consume_events", "dex/src/state.rs:Queue::push_back", "dex/src/state.rs:Queue::pop_front", "dex/src/state.rs:State::process_new_order_v3", "dex/src/matching.rs:OrderBookState::process_orderbook_request"]}
{"id": "C101", "title": "Markets that look alike behave alike", "statement": "Take two markets, each with its own history, that now look alike: the same market record, next order number, token balances, contents of every open-orders account, resting orders, queued events, and room in books and queue. They may differ in how the books lie in memory, where the event queue starts in its ring, and in which order the accounts were opened. Then whatever follows (instructions with any bytes and accounts, successful or not, token movements of others, deletions of closed accounts) has the same outcome on both at every single step, error for error, and the markets still look alike afterwards.", "quantifier": "all pairs of reachable states that look alike, all sequences of instructions, token instructions and deletions of any length", "why_tests_cant": "two arbitrary histories and an arbitrary continuation are compared; the number of memory layouts of one and the same book is enormous", "anchors": ["dex/src/critbit.rs:Slab", "dex/src/state.rs:Queue", "dex/src/state.rs:State::process", "dex/src/matching.rs:OrderBookState"]}
{"id": "C102", "title": "A longer event queue never hurts", "statement": "Take two markets that look alike except that the second has at least as much room in its event queue. Then any sequence of instructions, token movements and deletions all of which succeed on the first also all succeed on the second, with the same effect: afterwards the markets again look alike but for the room in the queue.", "quantifier": "all pairs of reachable states that look alike but for the queue's length, all sequences of any length that succeed on the first", "why_tests_cant": "compares all executions of two markets of arbitrary queue sizes", "anchors": ["dex/src/state.rs:Queue::push_back", "dex/src/matching.rs:OrderBookState", "dex/src/state.rs:State::process"]}
{"id": "C103", "title": "Dividing or delaying a pool order never helps", "statement": "A customer of a pool (whose accounts take none of its fees) who creates a quantity of pool tokens in any number of parts ends with no more of any asset and no more pool tokens than by one request for the whole, and the vaults hold at least as much. Redeeming a quantity in parts likewise returns no more of any asset for the same pool tokens. And whatever happens between two quotes for the same quantity, the later quote is no lower in any asset.", "quantifier": "all sound pools, balances, fee rates, account lists, quantities, divisions into any number of parts, and all moves of others between quotes", "why_tests_cant": "rounding in the shares and in three fee parts for all divisions of all quantities at all ratios of assets to supply", "anchors": ["pool/src/context.rs:get_simple_basket", "pool/src/context.rs:Fees::from_fee_rate_and_tokens", "pool/src/pool.rs:process_creation", "pool/src/pool.rs:process_redemption"]}
{"id": "C104", "title": "A send-take is an immediate-or-cancel order settled at once", "statement": "In every reachable market take an immediate-or-cancel order from an account that holds no money or rebates and has no orders on the other side, followed at once by a settlement of the account, and a send-take for the same side, limit price, size, budget and limit of matches, with the same signer, discount account and wallets. If all succeed, both ways leave the same books, the same market record (deposits, fees, rebates), the same balance in every token account and the same other open-orders accounts; the same fills and the same releases are queued for the makers, in the same order. The order's account holds no free money and no more locked money than before.", "quantifier": "all reachable states, sides, prices, sizes, budgets, limits, self-trade behaviours, fee tiers and account lists meeting the conditions, also if wallets coincide", "why_tests_cant": "two code paths with separate settlement arithmetic compared over all books and all amounts", "anchors": ["dex/src/state.rs:process_send_take", "dex/src/state.rs:process_new_order_v3", "dex/src/state.rs:process_settle_funds", "dex/src/matching.rs:process_orderbook_request"]}
{"id": "C105", "title": "Where referral money goes", "statement": "A fifth of every taker fee is recorded for referrers. In a market's whole life, what the market records for referrers is exactly what belongs to open-orders accounts (recorded, or in queued fills), plus a fifth of every fee charged to a send-take, plus the rebates that closed accounts left behind. The last two parts belong to nobody: once there, they stay in the record and in the vault at every later moment, apart from all deposits, fees and claims of accounts, so no instruction ever pays them out.", "quantifier": "all histories of a market of any length, all accounts", "why_tests_cant": "an exact balance over whole histories, and the absence of any sequence of instructions that pays the remainder out", "anchors": ["dex/src/matching.rs:match_orders", "dex/src/state.rs:process_settle_funds", "dex/src/state.rs:process_send_take", "dex/src/state.rs:process_close_open_orders", "dex/src/state.rs:process_sweep_fees"]}
{"id": "C106", "title": "Only what is ahead of an order matters to it", "statement": "Take two markets with the same address and lot sizes whose books agree on one side down to some order X, and differ in any way behind X, on the other side, in the accounts, in the money and in the queue. The same order or send-take against that side, shown with the same discount holdings, if it goes through in both, leaves the same queue down to X in both and queues the same fills and the same releases for these orders in the same order. The same holds over two whole histories that have in common what is sent against the side and what is cancelled of that queue: anything else may happen in one and not in the other. In particular, orders placed later at no better a price (unless one is pushed off a full book), cancellations of orders behind, cranking, settling, sweeping and closing leave that queue as it is.", "quantifier": "all pairs of reachable states agreeing on a side down to X, all orders and send-takes, all pairs of histories of any length", "why_tests_cant": "a comparison of two unboundedly long histories that differ almost everywhere", "anchors": ["dex/src/matching.rs:match_orders", "dex/src/matching.rs:new_bid", "dex/src/matching.rs:new_ask", "dex/src/critbit.rs:Slab", "dex/src/state.rs:gen_order_id"]}
{"id": "C107", "title": "What sending an instruction a second time does", "statement": "A successful instruction sent again at once with the same accounts, in whatever slot and environment: settling, sweeping fees, opening an account and cancelling a list of client ids succeed again and leave the whole state exactly as it is, so nobody is paid or credited twice; cancelling by order id and by client id are refused as not found (the latter does not reach for another order of the same client id); closing an account and disabling the market are refused. A cancelled order id cannot be cancelled on that side, and a market cannot be disabled again, at any later moment by anybody. Cranking when nothing is queued changes nothing.", "quantifier": "all reachable states, all account lists, all environments, and for the lasting refusals all later histories", "why_tests_cant": "a statement about the exact state after two runs, from every reachable state and with every list of accounts", "anchors": ["dex/src/state.rs:process_settle_funds", "dex/src/state.rs:process_sweep_fees", "dex/src/state.rs:process_init_open_orders", "dex/src/state.rs:process_cancel_orders_by_client_ids", "dex/src/state.rs:process_cancel_order_v2", "dex/src/state.rs:process_cancel_order_by_client_id_v2", "dex/src/state.rs:process_close_open_orders", "dex/src/state.rs:process_disable_market"]}
{"id": "C108", "title": "Best execution", "statement": "Whatever a successful order or send-take buys, no other way of buying at least as many lots from the orders that were on the book (from each no more than it offered, from none of the buyer's own) would have cost less; whatever it sells, no other way of selling at most as many lots would have brought more (prices before fees). Hence a deeper book never makes a trade dearer: if one book holds all the orders of another and perhaps more on the side traded with, a taker at the deeper one who buys no more lots pays no more, and one who sells no fewer gets no less, whoever the two takers are and whatever their sizes, limits and tiers.", "quantifier": "all reachable states, all successful orders and send-takes, all choices of lots from the resting orders, all pairs of states with nested books", "why_tests_cant": "an optimum over all ways of choosing lots from any book", "anchors": ["dex/src/matching.rs:match_orders", "dex/src/matching.rs:new_bid", "dex/src/matching.rs:new_ask", "dex/src/critbit.rs:Slab"]}
{"id": "C109", "title": "A limit order cancelled at once is an immediate-or-cancel order, and a change of mind is free", "statement": "Place a limit order, and cancel it before anything else happens: the market is left as if the order had been immediate-or-cancel. Both books, the market's totals and fees, the sequence number, every token balance and every open-orders record (all fields) are equal, and the same fills and releases are queued in the same order; only the reports on the order itself differ, and both queues end in a final one. The same holds of a limit order of which nothing came to rest. In particular an order of any kind that met nobody costs nothing to take back: the only change is that what was paid in for it (the bid's budget, or the coins offered, less what was free already) is in the account's free balance, and on the vault and in the deposit total. (Provided the order pushed nobody off a full book.)", "quantifier": "all reachable states, all successful limit orders (any order for the last part) pushing nobody off, each followed by a successful cancel", "why_tests_cant": "two programs' whole effects compared over all books, sizes, prices, tiers and self-trade behaviours", "anchors": ["dex/src/matching.rs:new_bid", "dex/src/matching.rs:new_ask", "dex/src/state.rs:process_new_order_v3", "dex/src/matching.rs:cancel_order_v2"]}
{"id": "C110", "title": "Nobody makes money out of themselves", "statement": "Take any open-orders accounts of a market as one group, with or without those who send-take from wallets. Over any stretch of the market's life the group's holdings (free, behind orders, due from events) change by exactly what it paid in and was paid out, what it got from and gave to others in trades, and the fees charged to it; what its members traded with each other cancels out, but for the fees, each of which is the positive fee of some tier. So a group that trades only with itself over a market's whole life was paid out or still has exactly the base it paid in, and exactly the quote it paid in less its fees; and with everything referrers ever got for it (at most a fifth of the fees) it has strictly less quote than it paid in if it traded at all.", "quantifier": "all histories of a market, all finite groups of accounts, with or without send-takes", "why_tests_cant": "all groups of accounts over all histories of any length", "anchors": ["dex/src/matching.rs:match_orders", "dex/src/fees.rs:taker_fee", "dex/src/fees.rs:referrer_rebate", "dex/src/state.rs:process_settle_funds"]}
{"id": "C111", "title": "It does not matter how or in which order orders are withdrawn", "statement": "Take two courses of withdrawals starting from the same state of a market: cancels by order id, by client id, in batches, and prunes, in any numbers, by anybody, of anybody's orders. If they leave the same orders on the books, they leave the same market record, vaults, wallets and order sequence number, and the same record in every account; the same events are queued, though perhaps in another order. After any cranks that empty both queues the two markets cannot be told apart: every account has the same money, rebates, owner and orders in the same slots. Any resting orders can in fact be cancelled by their owners in any order whatever, if the queue has room for one event each and what the accounts hold fits in 64 bits.", "quantifier": "all reachable states, all pairs of courses of withdrawals and cranks, all lists of resting orders and their permutations", "why_tests_cant": "all interleavings of four kinds of instructions by any number of users", "anchors": ["dex/src/state.rs:process_cancel_order_v2", "dex/src/state.rs:process_prune", "dex/src/matching.rs:cancel_order_v2", "dex/src/matching.rs:cancel_orders_by_client_order_ids", "dex/src/state.rs:process_consume_events"]}
{"id": "C112", "title": "Opening an account with the command line client", "statement": "On every reachable chain, in bytes: the client's transaction that creates an account and opens it on a market succeeds exactly if the address is unused and signs, the account is made 3228 bytes long (the size the client computes), the owner signs, the market is enabled, and its authority over accounts signs if it has one (the client never names it, so it opens accounts only on markets without). It then leaves an empty open account of that owner and market at the address and changes nothing else on the chain. The transaction that creates an account and at once places an order from it succeeds whenever such an order can be placed (C65), with the effect of the order on the market. The client's other commands are the program's own instruction builders on the market's accounts.", "quantifier": "all reachable chains, markets, addresses, sizes, signers, orders", "why_tests_cant": "all chains with any number of markets and all sizes, signers and markets' settings; the client is tested only against a live cluster", "anchors": ["dex/crank/src/lib.rs:init_open_orders", "dex/crank/src/lib.rs:place_order", "dex/crank/src/lib.rs:create_dex_account", "dex/crank/src/lib.rs:close_open_orders", "dex/crank/src/lib.rs:cancel_order_by_client_order_id", "dex/src/state.rs:load_orders_mut"]}
{"id": "C113", "title": "The depth chart tells a taker everything", "statement": "Whatever an order or send-take meets: given how many lots it meets in total, the number it meets at each price is the depth there as far as that total exceeds the depth at better prices, and exactly this is missing from the depth afterwards. If it can sweep (enough matches and money, none of its own orders in reach), it trades at each price within its limit the depth there as far as its size exceeds the depth at better prices, and nothing beyond. So how the lots at a price are divided into orders, and whose they are, makes no difference: two orders for the same lots with the same limit price and fee rate, on two books (even of two markets) with the same depth within the limit, trade the same lots at each price for the same value, leave the same depth, and their fees differ by less than one unit per match.", "quantifier": "all reachable states and pairs of states, all orders and send-takes, prices, sizes, fee tiers, divisions of the depth into orders", "why_tests_cant": "compares runs on pairs of arbitrary books with arbitrarily many orders", "anchors": ["dex/src/matching.rs:match_bid", "dex/src/matching.rs:match_ask", "dex/src/matching.rs:OrderBookState::new_order", "dex/src/fees.rs:taker_fee"]}
{"id": "C114", "title": "Nobody can make a book slow to search", "statement": "In every state a market can get into, each book can be walked from its root to any order over at most 129 nodes, and over no more nodes than there are orders on it, whatever the prices, number and history of the orders. Every loop that walks a book (finding the best or the worst order, finding the place for a new one, finding an order by its id) ends after at most that many rounds. The bound of 129 is met by some book.", "quantifier": "all reachable states, all books of any size, all ways down the tree, all ids searched for", "why_tests_cant": "the depth depends on the ids present, which traders choose by their prices; tests see a few random books", "anchors": ["dex/src/critbit.rs:find_min_max", "dex/src/critbit.rs:insert_leaf", "dex/src/critbit.rs:remove_by_key"]}
{"id": "C115", "title": "Base balances are always whole lots", "statement": "In every state a market can get into, every account's free base balance, every amount of base that a queued event still credits, and the recorded base deposits are whole multiples of the market's base lot size, however orders were traded, self-traded, evicted, cancelled, pruned or settled. A settlement pays out whole lots of base, and a sell order that needs a deposit takes whole lots from the payer, at most the size of the order. So nobody is left with base too small to be sold on the market.", "quantifier": "all reachable states, all accounts, all queued events, all lot sizes, all settlements and sell orders", "why_tests_cant": "it is a divisibility invariant of every account over every history and every lot size; tests check a few balances with a few lot sizes", "anchors": ["dex/src/state.rs:process_new_order_v3", "dex/src/state.rs:process_consume_events", "dex/src/state.rs:process_settle_funds", "dex/src/matching.rs:match_against_book"]}
{"id": "C116", "title": "The crank daemon sends when it should and serves everybody", "statement": "In every run of the crank's loop, whatever slots, account contents, send results and times it meets: once the node has taken a transaction of a round, nothing is sent again for what was seen at that slot or an earlier one; nothing is sent for an empty queue; two rounds are apart by at least the waiting time unless the later one found the queue at its length limit; and as soon as the slot is new, something waits and either the waiting time is over or the limit is reached, the round is sent. While passes come with new slots and after the waiting time, and what is sent is executed, then whatever other users do on the market meanwhile, every event waiting at the beginning is delivered after at most as many passes as there were events waiting.", "quantifier": "all runs of the loop of any length, all slots, times, account contents, send results, all arguments of the loop, all histories of the market interleaved with the passes", "why_tests_cant": "the loop runs for ever against a node whose answers, clock and other users it does not control; a test sees one finite run with one interleaving", "anchors": ["dex/crank/src/lib.rs:consume_events_loop", "dex/crank/src/lib.rs:consume_events_wrapper"]}
{"id": "C117", "title": "An instruction needs room for exactly the events it writes", "statement": "Take two markets that look alike except for the lengths of their event queues, and an instruction that consumes no events and goes through on the first. It removes no event. It goes through on the second exactly if the events then pending on the first fit in the second's queue, and then it has the same effect; if they do not fit, it is refused with EventQueueFull. What is refused on the first for any other reason is refused on the second for the same reason or with EventQueueFull. So the length of the queue matters in no other way, and no instruction asks for more room than it fills.", "quantifier": "all pairs of reachable markets with any queue lengths, all instruction bytes, accounts and environments other than consuming events", "why_tests_cant": "a test runs one market with one queue length; that no path of matching, self-trade handling, eviction, cancelling, pruning or replacing asks for room it does not use, or checks the room for another reason, is a statement about all of them", "anchors": ["dex/src/state.rs:Queue::push_back", "dex/src/matching.rs:OrderBookState::new_order", "dex/src/matching.rs:OrderBookState::cancel_order_v2", "dex/src/state.rs:State::process"]}
{"id": "C118", "title": "The events of an order, one by one", "statement": "Every successful NewOrderV3 and SendTake appends to the event queue exactly the events its trades call for, in order, each field included, and nothing else. For every resting order met, in the order of the textbook: if it trades, the maker's fill, then the maker's departure if nothing of it is left, then (for a taker with an account) the taker's fill with the fee, and, if that was the taker's last, its end with a buyer's change; if it belongs to the sender's account, what was cancelled and stays of it, and what was released and stays of the incoming order. After that, of an order not used up: if it rests, a buyer's excess lock and the eviction it causes; if it does not, its end with everything still locked. A send-take writes only the makers' events. The number of events follows, and by C117 an order that would go through on a longer queue goes through exactly if the queue has room for that number.", "quantifier": "all reachable states, all new orders and send-takes that succeed; for the room, all pairs of markets alike but for the queue length", "why_tests_cant": "the events are the only record clients, cranks and indexers get; which of them are written, in which order and with which amounts depends on every combination of side, self-trade behaviour, price levels, limits, budget exhaustion and book fullness", "anchors": ["dex/src/matching.rs:OrderBookState::new_order", "dex/src/matching.rs:OrderBookState::new_bid", "dex/src/matching.rs:OrderBookState::new_ask", "dex/src/state.rs:Event::new"]}
{"id": "C119", "title": "A full event queue freezes the book", "statement": "While the event queue is full, every instruction that goes through, other than a delivery of events, writes no event, leaves every resting order where it is with the same price and size, and adds no bid; and so does every sequence of such instructions, so the queue stays full with the same events until somebody delivers some. In particular no bid is accepted at all, the only order accepted is an ask above every bid, which rests whole and displaces nobody; a send-take trades nothing; a cancel or prune withdraws nothing. The owner's cancel of a resting order, which works whenever there is room, is refused as EventQueueFull. More precisely, a cancel or prune that would go through on a longer queue goes through exactly if there is a place for each order it withdraws, and is otherwise refused as EventQueueFull.", "quantifier": "all reachable states with a full event queue, all instructions, accounts and sequences of instructions; for the room, all pairs of markets alike but for the queue length", "why_tests_cant": "it speaks about every instruction and every sequence of instructions in every state whose queue is full; tests run with queues that are nearly empty", "anchors": ["dex/src/matching.rs:OrderBookState::new_bid", "dex/src/matching.rs:OrderBookState::new_ask", "dex/src/matching.rs:OrderBookState::cancel_order_v2", "dex/src/state.rs:Queue::push_back", "dex/src/error.rs:DexErrorCode::EventQueueFull"]}
{"id": "C120", "title": "More orders on the book hardly ever mean fewer lots", "statement": "Compare the same kind of order (or send-take) on two markets with the same quote lot, one of which has all the orders of the other on the side traded with, and perhaps more. On the deeper market let it ask for no less (as many lots, as generous a limit price, as much money, no higher fee rate), not be post-only, not be stopped by its limit of matches, and meet no order of its own account. Then a seller on the deeper market sells no fewer lots. A buyer buys no fewer lots either, unless the money ran out before the lots did; then the number of lots by which they fall short, less one, is worth at the price of the next order less than one quote unit for each match made. So where a lot costs at least as many units as there were matches, at most one lot is missed; and one lot can be missed, because the fee is rounded up at each match.", "quantifier": "all pairs of reachable states with nested books, all pairs of successful orders or send-takes in them", "why_tests_cant": "compares runs on pairs of books of any size; the exception comes from rounding the fee at every match and shows only when the budget is used up to the last units", "anchors": ["dex/src/matching.rs:OrderBookState::new_order", "dex/src/matching.rs:OrderBookState::new_bid", "dex/src/matching.rs:OrderBookState::new_ask", "dex/src/fees.rs:taker_fee", "dex/src/fees.rs:remove_taker_fee"]}
{"id": "C121", "title": "Nobody can take out of a vault what the market has not recorded", "statement": "Call surplus what a vault holds beyond what the market has recorded for it (deposits; in the quote vault also fees and rebates): for example tokens sent to the vault's address by mistake. No instruction from anybody, the sweep authority included, ever makes the surplus of a vault smaller, and neither does anything outside the program; so tokens sent there directly are lost. An instruction leaves the surplus exactly as it is, unless it is a settlement, take or sweep that names the vault itself as the account to be paid; such a payment then becomes surplus, and is lost as well.", "quantifier": "all reachable states, all instructions and all longer histories with token instructions in between, both vaults, also if one account is both", "why_tests_cant": "speaks about every instruction with every account list, including wallets that alias a vault, and about histories of any length", "anchors": ["dex/src/state.rs:State::process_settle_funds", "dex/src/state.rs:State::process_send_take", "dex/src/state.rs:State::process_sweep_fees", "dex/src/state.rs:State::process_new_order_v3"]}
{"id": "C122", "title": "The exchange neither makes nor destroys tokens, and takes none without a signature", "statement": "An instruction of the exchange does nothing to token accounts but move tokens: no token account appears or disappears, or changes its token, owner, close authority or frozen state; only finitely many accounts change, and together they hold exactly as much of every token as before. An account ends up with less only if its owner or its delegate signed the instruction (or is the vault signer of a market named in it); without the owner's signature it loses no more than the delegate's approval shrinks by, and approvals never grow or pass to somebody else. The same holds over any length of trading on any number of markets, with token transfers and arbitrary changes to all other accounts in between.", "quantifier": "all instructions with all accounts and data in all states of all accounts, reachable or not, in values and in bytes; all histories of instructions and transfers", "why_tests_cant": "a statement about every token and every token account on the chain after every instruction, including wallets that alias each other or a vault", "anchors": ["dex/src/state.rs:send_from_vault", "dex/src/state.rs:State::process_new_order_v3", "dex/src/state.rs:State::process_send_take", "dex/src/state.rs:State::process_settle_funds", "dex/src/state.rs:State::process_sweep_fees"]}
{"id": "C123", "title": "A pool makes and destroys only its own token, exactly as the supply says; the supply is what the holders have", "statement": "A successful call of the pool program, whatever its bytes and accounts, leaves the tokens in balance: finitely many token accounts change, and of every token they gain together exactly what its supply grows by, or lose what it shrinks by. Only the supply of the token of the pool named in the call can change. No token account appears, disappears or changes its token, owner, close authority or frozen state; one ends up with less only if its owner or delegate signed or is the pool's authority, and without the owner by no more than the delegate's approval shrinks; only the signed admin of the pool approves delegates, and only for accounts of the pool. So if the supply of a token is what all its holders have together, it stays so over any history of pool calls, token instructions and other changes in which no account with such tokens is closed.", "quantifier": "all calls of the pool program with all accounts and bytes on all chains, reachable or not; all histories with any number of pools and tokens", "why_tests_cant": "a statement about the sum over all accounts of the chain after any history, with any number of pools sharing holders, vaults and assets", "anchors": ["pool/src/context.rs:PoolContext::mint_tokens", "pool/src/context.rs:PoolContext::burn_tokens_and_collect_fees", "pool/src/pool.rs:Pool::process_creation", "pool/src/pool.rs:Pool::process_redemption", "pool/examples/admin-controlled/src/lib.rs"]}
{"id": "C124", "title": "Which cluster a string names", "statement": "A string on the command line names a cluster exactly if it contains `http`, and then the cluster is that address itself, or if it is the letter or the word for one of the six known clusters; upper and lower case make no difference, and no string names two. A cluster read from a string is printed as a string that names it again. The address the client talks to always contains `http`; giving it instead of the name leads to the same address; and no two of the known clusters share one.", "quantifier": "all strings", "why_tests_cant": "a statement about every string; the tests try nine", "anchors": ["common/src/client/mod.rs:Cluster"]}
{"id": "C125", "title": "What the client's token transactions do, and that a token it makes is fully accounted for", "statement": "With the client of the common crate and the crank's commands, a token account is made exactly if its address is free, empty and for the owner named; a mint exactly if there is none at its address, with the authority named; tokens are minted to a new account exactly if the key given is the mint's authority, the address is free and the supply stays within 64 bits, and then the payer owns an account with exactly that quantity and the supply has grown by it; to an account there is, exactly if moreover it is of that token, not frozen and its balance stays within 64 bits; the owner of tokens sends them exactly if both accounts are of the same token and not frozen, there are enough and the sum fits 64 bits. Nothing else changes. From the making of a mint on, over any history of client transactions, pool calls and token instructions that closes no account holding the token, the supply is what all holders have together.", "quantifier": "all chains, accounts, keys and quantities; all histories", "why_tests_cant": "the crate's transactions have no tests; the claim is about every state of the chain and every history after a mint is made", "anchors": ["common/src/client/rpc.rs:create_token_account", "common/src/client/rpc.rs:create_and_init_mint", "common/src/client/rpc.rs:mint_to_new_account", "common/src/client/rpc.rs:transfer", "dex/crank/src/lib.rs:mint_to_existing_account", "dex/crank/src/lib.rs:initialize_token_account"]}
{"id": "C126", "title": "A pool can pay all its holders at once", "statement": "Where the supply of a pool's token is what its holders have (which lasts, C123), what the pool quotes to any number of its holders, each for the redemption of all they have, adds up to no more than it holds of any asset. If these are all the holders, less than one unit per holder is left over of each asset. Who holds the whole supply is quoted the whole of every vault.", "quantifier": "all pools and chains, all sets of holders, all balances and histories", "why_tests_cant": "a sum over any number of holders of rounded shares, after any history", "anchors": ["pool/src/context.rs:PoolContext::get_simple_basket", "pool/src/pool.rs:Pool::get_redemption_basket"]}
{"id": "C127", "title": "Adding the fee and removing it fit together exactly", "statement": "What is left to spend out of a locked amount is at least q exactly if the amount covers q together with the fee on q: so q plus its fee is the least that has to be locked to spend q, and removing the fee from it gives back q exactly (the project's test allows a difference of one). More to spend costs strictly more, and who locks more can spend no less. What is kept back of any locked amount is the fee or one unit more. After rebates the exchange keeps four fifths of the advertised rate but for rounding, always something, and up to the test's allowance for dust at least the three parts in 100000 it asks for. Every rate is stored exactly or as the next smaller number with 64 fractional bits.", "quantifier": "all tiers, all 64-bit amounts, all rates below one", "why_tests_cant": "the project samples these with random inputs, and in the weaker form in which a sample cannot refute them; the exact form is an equivalence over all pairs of 64-bit amounts", "anchors": ["dex/src/fees.rs:FeeTier::taker_fee", "dex/src/fees.rs:FeeTier::remove_taker_fee", "dex/src/fees.rs:fee_tenth_of_bps", "dex/src/fees.rs:referrer_rebate"]}
{"id": "C128", "title": "How far a prune gets with its limit", "statement": "A prune that goes through works on the account's asks before its bids, and on each side from the highest order id down: if it withdraws an order it withdraws all orders of the account on that side with a higher id, and if it withdraws a bid it withdraws all the account's asks. A side with n orders of anybody costs 2n-1 units of the limit (nothing if it is empty): a limit that covers the asks withdraws all the account's asks, a limit that covers both sides withdraws everything, and nothing less withdraws the lowest ask or the lowest bid of the book. So the account with the lowest bid is cleared exactly if the limit covers both sides. Never are more orders withdrawn than the limit says. A prune finds nothing only if the account has no orders or the limit is at most twice the number of resting orders of others and 128. So with a greater limit, as many prunes as the account has orders clear it, whatever happens in between that leaves the books alone. And these prunes do go through, if the account is open, the market enabled, the queue has room for one event per order of the account, and what it holds fits in 64 bits.", "quantifier": "all reachable states, all accounts, all limits, all shapes of the search trees, all sequences of prunes", "why_tests_cant": "which orders are reached depends on the shape of two trees built by all earlier orders and on the limit; tests look at one book and one large limit", "anchors": ["dex/src/state.rs:process_prune", "dex/src/matching.rs:OrderBookState::remove_all", "dex/src/critbit.rs:Slab::find_by"]}
