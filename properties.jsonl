{"id": "C01", "title": "Deposit then withdraw the same amount never creates a borrow", "statement": "If a token position with a non-negative balance is credited with any amount by a deposit and then debited the same amount by a withdrawal in the same bank state, the withdrawal never turns the position into a borrow, never charges a loan origination fee, and never increases the bank's borrows.", "quantifier": "all amounts, all bank indexes, all non-negative starting positions", "why_tests_cant": "The claim depends on fixed-point rounding at every index value; a unit test samples a handful of (amount, index) pairs.", "anchors": ["programs/mango-v4/src/state/bank.rs::deposit", "programs/mango-v4/src/state/bank.rs::withdraw_with_fee", "programs/mango-v4/src/state/bank.rs::div_rounding_up"]}
{"id": "C02", "title": "Bank totals equal the sum of positions over every history", "statement": "For one token with any number of banks and any number of accounts, after every history of deposits, withdrawals (with and without fees), dusting, transfers, index updates, configuration edits, bank additions, fee withdrawals and loss socializations, the indexed deposits over the token's banks equal the sum of all positive indexed positions and the indexed borrows equal the sum of the magnitudes of all negative indexed positions, exactly.", "quantifier": "all operation histories over any number of accounts", "why_tests_cant": "The invariant must hold after arbitrary interleavings; tests run a fixed few operations.", "anchors": ["programs/mango-v4/src/state/bank.rs::deposit_internal", "programs/mango-v4/src/state/bank.rs::withdraw_internal", "programs/mango-v4/src/state/bank.rs::dust_if_possible", "programs/mango-v4/src/state/bank.rs::checked_transfer_with_fee"]}
{"id": "C03", "title": "Deposit rounding is in the user's favour by less than one index unit", "statement": "A deposit that leaves the position open raises the position's native value by at least the deposited amount and by less than the deposited amount plus one unit of index rounding, whether the position was a deposit or a borrow before.", "quantifier": "all amounts, indexes, starting positions", "why_tests_cant": "Rounding bound must hold for all fixed-point values.", "anchors": ["programs/mango-v4/src/state/bank.rs::deposit_internal", "programs/mango-v4/src/state/bank.rs::div_rounding_up"]}
{"id": "C04", "title": "Only the part of a withdrawal exceeding the deposit is borrowed, and only it pays the origination fee", "statement": "A withdrawal of at most the position's native value borrows nothing and charges no fee; a withdrawal exceeding it borrows exactly the excess plus fee, where fee = loan_origination_fee_rate * excess is credited to the bank's collected fees; the reported loan amount and fee agree with what was booked.", "quantifier": "all positions, amounts, fee rates, indexes", "why_tests_cant": "Branch structure times rounding; every boundary value matters.", "anchors": ["programs/mango-v4/src/state/bank.rs::withdraw_internal", "programs/mango-v4/src/state/bank.rs::withdraw_with_fee", "programs/mango-v4/src/state/bank.rs::withdraw_without_fee"]}
{"id": "C05", "title": "Net borrow limit per window", "statement": "Whenever an instruction passes the net-borrow check, the net native amount borrowed in the current window times the price is at most the configured limit; the window counter resets exactly when a new window starts, windows start at multiples of the window size and repayments reduce the counter.", "quantifier": "all histories of borrows and repayments and all timestamps", "why_tests_cant": "Time windows and counters over arbitrary histories.", "anchors": ["programs/mango-v4/src/state/bank.rs::update_net_borrows", "programs/mango-v4/src/state/bank.rs::check_net_borrows", "programs/mango-v4/src/state/bank.rs::remaining_net_borrows_quote"]}
{"id": "C06", "title": "Deposit limit headroom is safe", "statement": "Depositing at most the amount reported as remaining until the deposit limit, followed by the deposit-limit check, always passes; and a passing check implies native deposits plus potential open-order deposits do not exceed the limit. The check rejects nothing that is within the limit, and the remaining amount reported is all there is up to the value of one index bit and two bits of rounding.", "quantifier": "all bank states and amounts", "why_tests_cant": "Inequality over all fixed-point values.", "anchors": ["programs/mango-v4/src/state/bank.rs::remaining_deposits_until_limit", "programs/mango-v4/src/state/bank.rs::check_deposit_and_oo_limit"]}
{"id": "C07", "title": "Reduce-only and force-close banks restrict transfers", "statement": "A checked transfer from one account to another moves exactly the amount out of the source and into the target; it is refused if the bank is in reduce-only mode and the transfer would open or increase a borrow on the source (or a deposit on the target where deposits are reduce-only).", "quantifier": "all banks, positions, amounts", "why_tests_cant": "All combinations of reduce-only modes and sign crossings.", "anchors": ["programs/mango-v4/src/state/bank.rs::checked_transfer_with_fee", "programs/mango-v4/src/state/bank.rs::are_deposits_reduce_only", "programs/mango-v4/src/state/bank.rs::are_borrows_reduce_only"]}
{"id": "C08", "title": "Interest indexes never decrease", "statement": "Updating a bank's indexes for any elapsed time, utilization, interest-rate parameters accepted by bank verification, never decreases the deposit index nor the borrow index, along any history of updates.", "quantifier": "all histories of index updates", "why_tests_cant": "Unbounded histories and all parameter values.", "anchors": ["programs/mango-v4/src/state/bank.rs::compute_index", "programs/mango-v4/src/instructions/token_update_index_and_rate.rs"]}
{"id": "C09", "title": "Depositors are never credited more interest than borrowers are charged", "statement": "For one index update, the total native increase of deposits is at most the total native increase of borrows, up to a stated fixed-point rounding term. Conversely borrowers are charged the curve's rate at the current utilization plus the loan fee rate for the elapsed time, and while no more is borrowed than deposited all of it goes to depositors and fees, again up to a stated rounding term.", "quantifier": "all bank states, rates and time steps", "why_tests_cant": "Rounding relation over all values.", "anchors": ["programs/mango-v4/src/state/bank.rs::compute_index", "programs/mango-v4/src/state/bank.rs::instantaneous_utilization"]}
{"id": "C10", "title": "Interest rate curve is monotone, bounded and computable", "statement": "For parameters accepted by bank verification the borrow rate is, for every utilization, at least zero and at most the largest configured rate times the curve scaling, equals the zero-utilization rate (times scaling) at zero utilization, is non-decreasing in utilization when the configured rates are, and (for rates up to a hundred billion percent) its computation aborts exactly if the first kink is placed at utilization zero and the utilization is zero. Up to two bits of rounding the rate runs on straight lines through the four configured points, times the scaling.", "quantifier": "all utilizations and accepted parameters", "why_tests_cant": "Curve over a continuum; edge cases at the kinks (including util0 = 0).", "anchors": ["programs/mango-v4/src/state/bank.rs::interest_rate_curve_calculator", "programs/mango-v4/src/state/bank.rs::verify", "programs/mango-v4/src/state/bank.rs::compute_interest_rate"]}
{"id": "C11", "title": "Shifting maintenance weights stay between their endpoints", "statement": "At every timestamp, the effective maintenance asset weight lies between the current and the target weight, equals the start value before the shift, equals the target after it; likewise for liability weights. Both move monotonically towards their targets, in between on a straight line in time up to a stated rounding term.", "quantifier": "all timestamps and configurations", "why_tests_cant": "Continuum of times with truncated fixed-point division.", "anchors": ["programs/mango-v4/src/state/bank.rs::maint_weights"]}
{"id": "C12", "title": "Token bankruptcy: insurance pays first, then depositors share a bounded loss", "statement": "Token bankruptcy succeeds only for an account without open or unsettled orders, perp base positions, unprocessed fills, positive perp pnl or a token that could still be liquidated for what it owes, and only for a token it owes. The insurance fund pays first: at most what it holds, nothing for uncovered tokens, at most the price of the covered debt plus fee (rounded up); the debt is credited at most what was paid for. Depositors are charged only if the fund is exhausted, and then exactly the remaining loss, which is at most what the account owes: the deposit index of the credited banks falls by loss divided by all deposits (rounded down, positive as long as the loss is below all deposits), borrow indexes stay, the account's position becomes zero and totals follow. On the liability token nothing else happens: the instruction is a credit to the liqee, a charge of the same amount to the liqor and the socialization. The amounts are exact: the fund pays the price of the debt to be covered if it can and all it has otherwise, and exactly the rest is socialized when it is exhausted, after which the account owes nothing.", "quantifier": "all states of any number of banks, accounts, insurance funds and prices; all requested amounts", "why_tests_cant": "All values of index, deposits, losses, insurance balances and prices, and any number of banks.", "anchors": ["programs/mango-v4/src/instructions/token_liq_bankruptcy.rs: token_liq_bankruptcy", "programs/mango-v4/src/health/cache.rs: require_after_phase2_liquidation"]}
{"id": "C13", "title": "The order tree behaves as a sorted map for every operation history", "statement": "For every history of inserting and removing keyed orders, each side's order tree contains exactly the orders inserted and not removed, iteration yields them strictly sorted by key in both directions, min/max are the least/greatest, removal returns exactly the removed order, and the fixed-price tree and oracle-pegged tree sharing one node pool never disturb one another.", "quantifier": "all histories of inserts and removes with any keys", "why_tests_cant": "Critbit tree shape depends on all key sets; only finitely many can be tested.", "anchors": ["programs/mango-v4/src/state/orderbook/ordertree.rs::insert_leaf", "programs/mango-v4/src/state/orderbook/ordertree.rs::remove_by_key", "programs/mango-v4/src/state/orderbook/ordertree_iterator.rs"]}
{"id": "C14", "title": "Node pool never hands out a node twice and never overruns", "statement": "For every history of tree operations, the pool's free list and the live nodes are disjoint and cover exactly the allocated part, no live node is overwritten by an insert, and insert fails with out-of-space only when the pool is really full; removing all orders lets the same number be inserted again.", "quantifier": "all histories", "why_tests_cant": "Allocation/free-list aliasing bugs appear only under specific histories.", "anchors": ["programs/mango-v4/src/state/orderbook/ordertree.rs::insert", "programs/mango-v4/src/state/orderbook/ordertree.rs::remove", "programs/mango-v4/src/state/orderbook/ordertree.rs::is_full"]}
{"id": "C15", "title": "Earliest-expiry bookkeeping is exact", "statement": "In every reachable book the stored earliest-expiry of each inner node child equals the minimum expiry over the orders below it, so removing one expired order removes an order iff some order in the tree has expired, and the one it removes is expired.", "quantifier": "all histories and timestamps", "why_tests_cant": "Per-node cached aggregates over all tree shapes.", "anchors": ["programs/mango-v4/src/state/orderbook/ordertree.rs::update_parent_earliest_expiry", "programs/mango-v4/src/state/orderbook/ordertree.rs::find_earliest_expiry", "programs/mango-v4/src/state/orderbook/bookside.rs::remove_one_expired"]}
{"id": "C16", "title": "Order keys realise price-time priority", "statement": "Comparing the 128-bit keys of two orders on the same side orders them by price (better first) and then by sequence number (older first); distinct sequence numbers give distinct keys; price and peg offset are recovered exactly from the key.", "quantifier": "all prices, offsets and sequence numbers", "why_tests_cant": "2^64 x 2^64 domain.", "anchors": ["programs/mango-v4/src/state/orderbook/nodes.rs::new_node_key", "programs/mango-v4/src/state/orderbook/nodes.rs::fixed_price_data", "programs/mango-v4/src/state/orderbook/nodes.rs::oracle_pegged_price_data"]}
{"id": "C17", "title": "Book iteration merges fixed and pegged orders by priority", "statement": "Iterating a book side at a given oracle price yields every resting order exactly once except pegged orders whose price is not representable, best price first, ties by sequence number, each with the price it would trade at and with validity reflecting expiry and peg limit.", "quantifier": "all books, oracle prices, timestamps", "why_tests_cant": "All book contents.", "anchors": ["programs/mango-v4/src/state/orderbook/bookside_iterator.rs"]}
{"id": "C18", "title": "Matching never violates the taker's limits", "statement": "A new order never trades at a price worse than its limit, never trades more base than its max base lots nor more quote (excluding fees) than its max quote lots, and produces no more than the allowed number of matches. The oracle price in lots that pegged orders and price bands use is the oracle price converted by the lot sizes, rounded down.", "quantifier": "all books and orders", "why_tests_cant": "All books.", "anchors": ["programs/mango-v4/src/state/orderbook/book.rs::new_order"]}
{"id": "C19", "title": "Makers are filled best price first", "statement": "Fills produced by one order are in priority order. For a buy order, no valid resting order with strictly higher priority is left with remaining quantity when a lower-priority order was filled. For a sell order the same holds except that a better-priced order may be left standing when the order's remaining quote allowance no longer pays for one lot at its price (the code then trades on at worse prices; this exception is real and exhibited). An order that may trade leaves an acceptable offer standing only when its base lots are all traded, its match limit is reached, or what is left of its quote limit does not pay one lot of an offer that is no later in priority.", "quantifier": "all books and orders", "why_tests_cant": "All books.", "anchors": ["programs/mango-v4/src/state/orderbook/book.rs::new_order"]}
{"id": "C20", "title": "Post-only orders never take; post-only-slide never crosses", "statement": "A post-only order produces no fills and leaves the opposing side alone; a post-only or post-only-slide order, and any buy order, is never left resting at a price that crosses a valid opposing order; a post-only-slide order rests at its limit or one lot away from the best opposing order, whichever is less aggressive. (A plain limit sell order whose quote allowance runs out can be left crossing; exhibited.)", "quantifier": "all books and orders", "why_tests_cant": "All books.", "anchors": ["programs/mango-v4/src/state/orderbook/book.rs::new_order", "programs/mango-v4/src/state/orderbook/order.rs"]}
{"id": "C21", "title": "Matching conserves lots", "statement": "For each new order, the base lots the taker is recorded as taking equals the sum over fill events, each maker's remaining quantity drops by exactly its fill, quote equals sum of price*quantity, and the posted remainder plus taken base never exceeds the order's max base lots. What rests on the book is exactly what the trades leave: the untraded base lots, or as many as the unspent quote pays at the order's price, with the order's expiry, peg limit and client id; nothing rests only if the order type never rests, nothing is left, the price is outside the band around the oracle price, or a matching offer blocks a post-only order or one whose match limit is reached.", "quantifier": "all books and orders", "why_tests_cant": "All books.", "anchors": ["programs/mango-v4/src/state/orderbook/book.rs::new_order"]}
{"id": "C22", "title": "Self-trade behaviour is honoured", "statement": "With decrement-take, matching own orders yields fills without taker fee; with cancel-provide own orders are removed without a fill; with abort-transaction the whole order fails.", "quantifier": "all books and orders", "why_tests_cant": "All books.", "anchors": ["programs/mango-v4/src/state/orderbook/book.rs::new_order", "programs/mango-v4/src/state/orderbook/order_type.rs"]}
{"id": "C23", "title": "The event queue is a FIFO", "statement": "For every history of pushes, pops, and push reversions, the ring buffer behaves as a bounded FIFO queue of at most its capacity, including wrap-around; pushes on a full queue and pops on an empty one fail without changing it; sequence numbers count pushes.", "quantifier": "all histories", "why_tests_cant": "Wrap-around states depend on unbounded histories.", "anchors": ["programs/mango-v4/src/state/orderbook/queue.rs"]}
{"id": "C24", "title": "Account open-order lot counters match the book and pending events", "statement": "For every history of placing, cancelling, matching, expiring, and event consumption, an account's bids/asks base lots equal the total lots of its resting orders plus the lots in not-yet-consumed fill and out events for it.", "quantifier": "all histories of trading operations over any accounts", "why_tests_cant": "Asynchronous events and unbounded interleavings.", "anchors": ["programs/mango-v4/src/state/mango_account.rs::add_perp_order", "programs/mango-v4/src/state/mango_account.rs::execute_perp_maker", "programs/mango-v4/src/state/mango_account.rs::execute_perp_out_event", "programs/mango-v4/src/state/orderbook/book.rs"]}
{"id": "C25", "title": "Open interest and zero-sum positions", "statement": "For every history of trading operations, the market's open interest equals the sum of absolute base positions over accounts, and all base positions plus pending (in-flight) taker/maker fills sum to zero; quote positions plus fees sum to zero accordingly.", "quantifier": "all histories", "why_tests_cant": "Interleavings of asynchronous settlement.", "anchors": ["programs/mango-v4/src/state/mango_account.rs::execute_perp_maker", "programs/mango-v4/src/state/mango_account.rs::execute_perp_taker", "programs/mango-v4/src/state/mango_account_components.rs::change_base_position"]}
{"id": "C26", "title": "Late events never touch a reused order slot", "statement": "Consuming a fill or out event for an order whose slot was already freed and reused by another order never frees or changes the new order's slot.", "quantifier": "all slot/event histories", "why_tests_cant": "Race between event consumption and slot reuse.", "anchors": ["programs/mango-v4/src/state/mango_account.rs::execute_perp_maker", "programs/mango-v4/src/state/mango_account.rs::execute_perp_out_event", "programs/mango-v4/src/state/mango_account.rs::remove_perp_order"]}
{"id": "C27", "title": "Perp fee accounting", "statement": "The fees credited to the market by a trade equal exactly the taker fee and penalty debited from the taker plus the maker fee at the market's rate on the fills with other makers; self-trades carry no fees; a maker is debited its fee at the rate recorded in the fill event (the market's rate rounded to f32) when the event is consumed, and nothing else.", "quantifier": "all trades", "why_tests_cant": "All values.", "anchors": ["programs/mango-v4/src/state/orderbook/book.rs::apply_fees", "programs/mango-v4/src/state/orderbook/book.rs::apply_penalty", "programs/mango-v4/src/state/mango_account.rs::execute_perp_maker"]}
{"id": "C28", "title": "Funding settlement is exact, idempotent and zero-sum", "statement": "Settling funding moves exactly base_position * (index change) from the quote position, a second settle with unchanged indexes does nothing, and over positions summing to zero with equal long/short funding the total quote change is zero.", "quantifier": "all positions and funding indexes", "why_tests_cant": "All values.", "anchors": ["programs/mango-v4/src/state/mango_account_components.rs::settle_funding", "programs/mango-v4/src/state/mango_account_components.rs::unsettled_funding"]}
{"id": "C29", "title": "Settleable pnl respects the settle limit", "statement": "Over every history inside one settle window, the net profit (or loss) a position settles, in whole native units, is at most the position-value limit plus the allowance it held at the window's start plus the allowance granted since (funding, fees, closing trades, takeovers); the available limits always straddle zero; a settlement never exceeds the available limits of either side, and a new window resets only the used amount. The amount that can still be settled is exactly the position-value limit plus the usable recurring allowance plus the one-shot allowance less what was settled in the window, and a settlement takes exactly the smallest of the profit, the loss, what health allows and the two limits.", "quantifier": "all histories of settlements, funding payments, fees, trades, liquidations; all market states and prices", "why_tests_cant": "Time windows over arbitrary histories.", "anchors": ["programs/mango-v4/src/state/mango_account_components.rs::available_settle_limit", "programs/mango-v4/src/state/mango_account_components.rs::update_settle_limit", "programs/mango-v4/src/state/mango_account_components.rs::apply_pnl_settle_limit", "programs/mango-v4/src/state/mango_account_components.rs::record_settle"]}
{"id": "C30", "title": "Settle fee is bounded", "statement": "The fee paid to a settler is non-negative and is at most the settled amount (and zero below the fee threshold unless health is low). It is exactly the flat fee at or above the threshold and otherwise the low-health fraction (weighted by how far health has fallen) up to twice the flat fee, in each case limited by the settled amount; nothing for profits of at most one percent of the position.", "quantifier": "all inputs", "why_tests_cant": "All values.", "anchors": ["programs/mango-v4/src/state/perp_market.rs::compute_settle_fee"]}
{"id": "C31", "title": "Perp loss socialization", "statement": "Socializing a perp loss raises long funding and lowers short funding by loss/open_interest, every open position is charged in proportion to its size, and the total charged equals the loss up to less than one unit in the last place per lot of open interest (never more than the loss).", "quantifier": "all reachable market states and losses", "why_tests_cant": "All values.", "anchors": ["programs/mango-v4/src/state/perp_market.rs::socialize_loss"]}
{"id": "C32", "title": "Account slots are unique and stable", "statement": "For every history of activating/deactivating token, serum and perp slots, an account never has two active slots for the same token/market, activation returns the existing slot if any, and never moves or alters other active slots.", "quantifier": "all histories", "why_tests_cant": "All histories.", "anchors": ["programs/mango-v4/src/state/mango_account.rs::ensure_token_position", "programs/mango-v4/src/state/mango_account.rs::deactivate_token_position", "programs/mango-v4/src/state/mango_account.rs::create_serum3_orders", "programs/mango-v4/src/state/mango_account.rs::ensure_perp_position"]}
{"id": "C33", "title": "Resizing an account preserves its content", "statement": "Changing the number of token, serum, perp, open-order and conditional-swap slots keeps every active position with unchanged contents, whatever the direction of change per section, or fails; it never silently drops an active slot.", "quantifier": "all old and new header sizes and contents", "why_tests_cant": "Overlapping memmoves over all size combinations.", "anchors": ["programs/mango-v4/src/state/mango_account.rs::resize_dynamic_content"]}
{"id": "C34", "title": "Buyback fees expire between one and two intervals after accrual", "statement": "Fees accrued for buyback remain usable for at least one interval and at most two; using fees never yields more than accrued. A buyback exchanges as much as the request, the accrued fees, the DAO's fee tokens and the account's MNGO allow, up to rounding.", "quantifier": "all histories and timestamps", "why_tests_cant": "Time windows.", "anchors": ["programs/mango-v4/src/state/mango_account.rs::expire_buyback_fees", "programs/mango-v4/src/state/mango_account.rs::accrue_buyback_fees", "programs/mango-v4/src/state/mango_account.rs::reduce_buyback_fees_accrued"]}
{"id": "C35", "title": "Liquidation state machine", "statement": "An account not being liquidated can be liquidated only if its maintenance health is negative; once being liquidated it stays so until its liquidation-end health exceeds the recovery threshold. Conversely every account with negative maintenance health can be liquidated, and an account can act exactly if it is not being liquidated or one of its healths has recovered.", "quantifier": "all healths and histories", "why_tests_cant": "State machine over all health histories.", "anchors": ["programs/mango-v4/src/state/mango_account.rs::check_liquidatable", "programs/mango-v4/src/state/mango_account.rs::check_health_pre"]}
{"id": "C36", "title": "Health check after an instruction", "statement": "An instruction that passes the post-check leaves init health non-negative, or did not decrease it (within the rounding rule stated). Conversely every instruction after which init health is non-negative or not lower passes.", "quantifier": "all pre and post healths", "why_tests_cant": "All values.", "anchors": ["programs/mango-v4/src/state/mango_account.rs::check_health_post"]}
{"id": "C37", "title": "Init health <= liquidation-end health <= maintenance health", "statement": "For every account whose risk parameters are ordered (init at most as generous as liquidation-end at most as generous as maintenance), init health <= liquidation-end health <= maintenance health: exactly when no funds are reserved in spot orders, up to rounding when every token used by several spot markets with reserved funds weighs assets and liabilities alike; otherwise the ordering can fail.", "quantifier": "all accounts", "why_tests_cant": "Sum over arbitrary many positions with reserved amounts.", "anchors": ["programs/mango-v4/src/health/cache.rs::health", "programs/mango-v4/src/health/cache.rs::has_possible_spot_borrows", "programs/mango-v4/src/health/cache.rs"]}
{"id": "C38", "title": "Health equals assets minus liabilities", "statement": "For every health cache, the asset and liability sums reported by both splitting functions differ by the health, up to the last place of fixed-point rounding per token.", "quantifier": "all health caches", "why_tests_cant": "All values.", "anchors": ["programs/mango-v4/src/health/cache.rs::health_assets_and_liabs_stable_assets", "programs/mango-v4/src/health/cache.rs::health_assets_and_liabs_stable_liabs"]}
{"id": "C39", "title": "Amounts for reaching health zero are right", "statement": "The spot amount computed to bring health to zero is such that applying it does not overshoot beyond rounding.", "quantifier": "all token states", "why_tests_cant": "All values.", "anchors": ["programs/mango-v4/src/health/cache.rs::spot_amount_taken_for_health_zero", "programs/mango-v4/src/health/cache.rs::spot_amount_given_for_health_zero"]}
{"id": "C40", "title": "Health with skipped banks underestimates full health", "statement": "Computing health while skipping unavailable banks/oracles of non-negative positions never yields more than the full health, up to rounding, when every token used by several spot markets with reserved funds weighs assets and liabilities alike; otherwise it can exceed the full health.", "quantifier": "all accounts and subsets of skippable banks", "why_tests_cant": "All combinations.", "anchors": ["programs/mango-v4/src/health/cache.rs::new_health_cache_skipping_bad_oracles", "programs/mango-v4/src/health/cache.rs::new_health_cache_skipping_missing_banks_and_bad_oracles"]}
{"id": "C41", "title": "Perp health uses the worst case of open orders", "statement": "The perp health contribution is at most the contribution under any execution of bids only or asks only, and hupnl <= uhupnl <= upnl when weights <= 1.", "quantifier": "all perp infos", "why_tests_cant": "All values.", "anchors": ["programs/mango-v4/src/health/cache.rs::unweighted_health_unsettled_pnl"]}
{"id": "C42", "title": "30-bit fixed-point division accuracy", "statement": "The reduced-precision division used in liquidation never aborts where the exact quotient is in range and its relative error is below a stated bound.", "quantifier": "all operands", "why_tests_cant": "128-bit operand space.", "anchors": ["programs/mango-v4/src/i80f48.rs::checked_div_30bit_precision"]}
{"id": "C43", "title": "Stable price moves are bounded", "statement": "One stable price update moves the price towards the oracle average by no more than the growth limit and never overshoots. It moves as far as the growth limit allows, and the delayed prices take the average oracle price within their own limit.", "quantifier": "all histories of prices", "why_tests_cant": "Histories.", "anchors": ["programs/mango-v4/src/state/stable_price.rs::update"]}
{"id": "C44", "title": "Bad oracles are rejected", "statement": "A price is only used if it was read from the bank's (or market's) own oracle, is not negative (stub oracles excepted), its deviation is within the filter and (if configured) it is not stale; a bank whose oracle is readable but stale or unconfident uses its own fallback oracle under the same rules; otherwise an error is returned. A price that satisfies the rules is used. A pool is priced against USDC if one of its tokens is USDC and otherwise against SOL, with that token's feed; a pool with neither gives no price.", "quantifier": "all oracle states and slots", "why_tests_cant": "All values.", "anchors": ["programs/mango-v4/src/state/oracle.rs", "programs/mango-v4/src/state/bank.rs::oracle_price"]}
{"id": "C45", "title": "Flash loans are settled in the transaction that takes them", "statement": "After any successful transaction no bank is in a flash loan. A Begin is always followed by an End for the same account, vaults and token accounts, and in between no other mango instruction runs, neither directly nor called by another program. Over the loan, what a bank owes to the account and in fees changes by exactly the tokens its vault gained or lost, up to rounding; other accounts and other tokens are untouched. This accounting holds when End's list of health accounts has no duplicates; with a bank listed twice a borrow can be erased (exhibited).", "quantifier": "all transactions (lists of instructions of mango and of other programs, including calls into mango), all loans", "why_tests_cant": "Any sequence of instructions of any program may surround the loan; a test shows some of them.", "anchors": ["programs/mango-v4/src/instructions/flash_loan.rs: flash_loan_begin, flash_loan_swap_begin, flash_loan_end", "programs/mango-v4/src/state/bank.rs: flash_loan_approved_amount, flash_loan_token_account_initial"]}
{"id": "C46", "title": "Instruction gate authority", "statement": "Only the admin can re-enable an instruction; the security admin can only disable; a disabled instruction stays disabled along every history without an admin action.", "quantifier": "all histories of gate changes", "why_tests_cant": "Bitmask over all histories.", "anchors": ["programs/mango-v4/src/instructions/ix_gate_set.rs", "programs/mango-v4/src/state/group.rs::is_ix_enabled"]}
{"id": "C47", "title": "A token stays solvent up to rounding over every history", "statement": "After every history of token operations, all banks of the token share one pair of indexes, and the users' total net claim (deposits minus borrows at the current indexes) plus uncollected fees and dust exceeds the net tokens paid in by at most a stated rounding slack per operation (one index step per position change, two bits per borrowed index unit per index update).", "quantifier": "all histories of token operations by any number of users, all amounts, times and verified configurations", "why_tests_cant": "An unbounded accumulation of rounding and interest over arbitrary histories; tests check single operations with a tolerance.", "anchors": ["programs/mango-v4/src/state/bank.rs: deposit_internal, withdraw_internal, compute_index", "programs/mango-v4/src/instructions/token_update_index_and_rate.rs", "programs/mango-v4/src/instructions/token_liq_bankruptcy.rs"]}
{"id": "C48", "title": "Pending events can be executed", "statement": "While an event about an account's order is pending, that account exists and has a perp position in the market; a taker with pending fills also has one unless its pending fills cancel out exactly in base and quote, in which case it can deactivate and block the queue (as can shrinking the open-order section below the event's slot).", "quantifier": "all histories of trading, deactivation, account resizing and closing", "why_tests_cant": "depends on every interleaving of fills, cancels, deactivation and consumption", "anchors": ["programs/mango-v4/src/instructions/perp_consume_events.rs", "programs/mango-v4/src/instructions/perp_deactivate_position.rs", "programs/mango-v4/src/state/mango_account.rs: resize_dynamic_content"]}
{"id": "C50", "title": "Settlement and bankruptcy create no value", "statement": "Settling pnl between two accounts, settling fees, updating funding and taking over pnl leave the total quote value of all positions plus the market's fees exactly unchanged; a perp bankruptcy moves the liquidated account's pnl to the liquidator, the insurance fund and the open positions, never lowering the total and raising it by less than one unit in the last place per lot of open interest; settlements are positive and within both sides' pnl; fees are within the settled amount; insurance paid is within the vault.", "quantifier": "all reachable market states, accounts, prices, health values and amounts", "why_tests_cant": "it must hold for every sequence of instructions and every price", "anchors": ["programs/mango-v4/src/instructions/perp_settle_pnl.rs", "programs/mango-v4/src/instructions/perp_settle_fees.rs", "programs/mango-v4/src/instructions/perp_liq_negative_pnl_or_bankruptcy.rs", "programs/mango-v4/src/state/perp_market.rs: socialize_loss, update_funding_and_stable_price"]}
{"id": "C51", "title": "Open spot orders are valued conservatively", "statement": "Computed health is at most the exact worth of the account after each spot market's orders execute entirely to base or entirely to quote, in any combination.", "quantifier": "all health caches and all choices of direction per market", "why_tests_cant": "Exponentially many combinations over arbitrary values.", "anchors": ["programs/mango-v4/src/health/cache.rs::health_contribution", "programs/mango-v4/src/health/cache.rs::compute_serum3_reservations"]}
{"id": "C52", "title": "Health only uses matching accounts", "statement": "Whatever accounts a caller passes, in any order: each bank, perp market and open-orders account the health computation obtains belongs to the group and has the requested index or key, and each price comes from the oracle accounts that bank or market names; a lookup of two banks returns them in the order requested. Well laid out lists are answered completely; where banks may be left out, a token whose bank was passed is answered with it and one whose bank was left out is reported missing.", "quantifier": "all account lists, both lookup strategies", "why_tests_cant": "Adversarial account lists.", "anchors": ["programs/mango-v4/src/health/account_retriever.rs"]}
{"id": "C53", "title": "Token positions in use are counted exactly and stay open", "statement": "After any sequence of instructions, the in-use count of each of an account's token positions equals the number of its open spot market accounts (base and quote token), perp positions (settle token) and conditional swaps (buy and sell token) that need the token; a needed token always has a position, which no instruction closes; and closing a spot account, perp position or conditional swap never fails because a token position is missing.", "quantifier": "all histories of account instructions", "why_tests_cant": "Counts must agree with the references after every interleaving of opening, closing and resizing.", "anchors": ["programs/mango-v4/src/state/mango_account_components.rs::increment_in_use", "programs/mango-v4/src/state/mango_account.rs::token_decrement_dust_deactivate", "programs/mango-v4/src/instructions/serum3_create_open_orders.rs", "programs/mango-v4/src/instructions/serum3_close_open_orders.rs", "programs/mango-v4/src/instructions/token_conditional_swap_create.rs", "programs/mango-v4/src/instructions/token_conditional_swap_cancel.rs"]}
{"id": "C54", "title": "Conditional swaps stay within their owner's limits", "statement": "Over the whole life of a token conditional swap, however often and by whomever it is triggered or started, its owner buys at most the maximum to buy and pays at most the maximum to sell (start incentive included, up to less than one native token). Each trigger happens before expiry and under the price condition, trades at the premium price plus maker fee rounded down in the owner's favour (both amounts positive or both zero), buys only what the owner owes unless the swap may create deposits and sells only what the owner has unless it may create borrows, pays maker and taker fees to the bank and the rest to the triggerer without creating tokens, and leaves the owner's health non-negative or improved. At an unchanged oracle price the price of a started auction never falls with time; a linear auction ends at exactly its upper limit.", "quantifier": "all swaps, prices, balances, triggerers, times and sequences of triggers and starts", "why_tests_cant": "Limits must hold for every price and every history of partial fills; rounding and float conversions have unboundedly many cases.", "anchors": ["programs/mango-v4/src/state/token_conditional_swap.rs", "programs/mango-v4/src/instructions/token_conditional_swap_trigger.rs::trade_amount", "programs/mango-v4/src/instructions/token_conditional_swap_trigger.rs::action", "programs/mango-v4/src/instructions/token_conditional_swap_start.rs", "programs/mango-v4/src/instructions/token_conditional_swap_create.rs"]}
{"id": "C55", "title": "Health is the documented formula", "statement": "For every account, bank, market and oracle state for which health can be computed at all, the health of each kind is: the sum over the account's tokens of balance times weight times price (asset weight and asset price for non-negative, liability weight and price for negative balances), where the balance is the deposit or borrow at the bank's index plus free funds in spot open orders accounts plus the perp pnl settling in the token; plus, for each spot market, the worse of all reserved funds becoming base or becoming quote. Init health uses init weights and the worse of oracle and stable price, maintenance health maintenance weights (shifted over time if configured) and oracle prices, liquidation-end health init weights and oracle prices. Scaling a bank's init weights by its total deposits and borrows never makes them more lenient.", "quantifier": "all accounts, banks, perp markets, open orders accounts, prices, times and roundings", "why_tests_cant": "The number and values of positions, orders and prices are unbounded and the implementation accumulates running sums over several passes.", "anchors": ["programs/mango-v4/src/health/cache.rs::compute_health", "programs/mango-v4/src/health/cache.rs::HealthCache::health", "programs/mango-v4/src/health/cache.rs::PerpInfo::new", "programs/mango-v4/src/state/bank.rs::scaled_init_asset_weight", "programs/mango-v4/src/state/bank.rs::scaled_init_liab_weight", "programs/mango-v4/src/state/bank.rs::maint_weights"]}
{"id": "C56", "title": "Token liquidation takes no more than needed", "statement": "token_liq_with_token changes balances only for an account without open orders that is liquidatable, between a liqor that is not being liquidated and ends with non-negative init health, and a liqee with a positive balance of the asset token and debt in the liab token. At most the requested debt, the liqee's debt, and the debt that brings liquidation-end health to zero is taken over; the liqee pays at most oracle price times the fees of both tokens, the liqor receives that without the platform fees, the difference is collected as fee, and nothing else changes. Afterwards liquidation-end health is at most zero up to rounding (less than one native quote unit for realistic sizes), and it has grown by at least the debt times the weighted-price gain per unit of debt, up to rounding. It goes as far as its limits allow: unless the requested amount or the debt is reached, one more bit of debt would gain more than the missing health or cost more than the available assets, and both payments are exactly the oracle-price equivalent times the fees.", "quantifier": "all liqee and liqor states, banks, prices, fees and requested amounts", "why_tests_cant": "The rounding of six chained multiplications and divisions, of two position updates and of dusting must be bounded for every combination of prices, weights, fees, indexes and balances.", "anchors": ["programs/mango-v4/src/instructions/token_liq_with_token.rs::token_liq_with_token", "programs/mango-v4/src/instructions/token_liq_with_token.rs::liquidation_action", "programs/mango-v4/src/health/cache.rs::HealthCache::adjust_token_balance", "programs/mango-v4/src/state/bank.rs::Bank::withdraw_without_fee_with_dusting"]}
{"id": "C57", "title": "Health after an instruction equals health computed afresh", "statement": "Instructions compute health once and then update the computed data in place when they deposit, withdraw, borrow, place, match or settle spot orders and change perp positions. After any number of such updates the maintenance and liquidation-end health are exactly what computing health from the resulting accounts and banks gives; init health is the same unless the scaling of asset weights differs between the lower and the higher of oracle and stable price, and then the in-place value is never lower than the fresh one.", "quantifier": "all accounts, banks, markets, prices and all sequences of in-place updates of the three kinds", "why_tests_cant": "A test compares both computations for a few accounts and single updates; agreement is needed for every state and every sequence of updates, including totals, indexes, rounding and weights scaled by bank totals.", "anchors": ["programs/mango-v4/src/health/cache.rs::HealthCache::adjust_token_balance", "programs/mango-v4/src/health/cache.rs::HealthCache::recompute_serum3_info", "programs/mango-v4/src/health/cache.rs::HealthCache::recompute_perp_info", "programs/mango-v4/src/health/cache.rs::new_health_cache_impl", "programs/mango-v4/src/state/bank.rs::Bank::scaled_init_asset_weight"]}
{"id": "C58", "title": "Loan fees on spot orders are charged once, when the loan leaves", "statement": "When an order on a spot market borrows tokens, nothing is charged at first; the origination fee is charged once for each borrowed token when the token has left the open orders account (traded away), for tokens that come back unused never. Over any history of placing, cancelling, matching and settling, the amount charged for plus the amount still pending equals the amount borrowed; a settle charges exactly the fee rate times the newly traded part of the loan.", "quantifier": "all histories of one open orders account: orders of both sides, matches, cancels, settles", "why_tests_cant": "Fees depend on the order of partial fills, cancels and settles.", "anchors": ["programs/mango-v4/src/instructions/serum3_place_order.rs::apply_vault_difference", "programs/mango-v4/src/instructions/serum3_settle_funds.rs::charge_loan_origination_fees"]}
{"id": "C59", "title": "Remembered order prices bound the orders on the book", "statement": "As long as an account has orders on one side of a spot market, the remembered price extremes bound the price of every one of its orders on that side (lowest ask, highest bid and their counterparts), are attained by an order placed since that side was last empty, and the reserved tokens valued at these prices are at least what the orders deliver at their own limit price; when the account places on an empty side the memory restarts from the new order.", "quantifier": "all histories of placing, matching, cancelling and settling, all prices and lot sizes", "why_tests_cant": "The memory must be right after every interleaving of placements and partial fills on both sides.", "anchors": ["programs/mango-v4/src/instructions/serum3_place_order.rs::serum3_place_order", "programs/mango-v4/src/state/mango_account_components.rs::Serum3Orders"]}
{"id": "C60", "title": "Banks know what spot orders may still return", "statement": "For every token with one bank, the bank's amount of potential spot tokens is the sum over all open orders accounts of what each may still bring into the account as last recorded, after any history of any number of accounts.", "quantifier": "all groups, accounts, markets and histories of order placement, settling, force cancelling and closing", "why_tests_cant": "A global counter updated by differences must be right after every history of many accounts.", "anchors": ["programs/mango-v4/src/instructions/serum3_place_order.rs::apply_settle_changes", "programs/mango-v4/src/state/bank.rs::potential_serum_tokens"]}
{"id": "C61", "title": "Spot orders cannot be used to exceed limits", "statement": "Placing a spot order succeeds only if the init health of the resulting accounts (computed as in C57: exactly the fresh value unless deposit-scaled weights differ between the two prices, and banks with unusable oracles left out) is non-negative or did not drop by a whole unit; only if a token in reduce-only mode cannot end above zero through the order, the bank of a received token stays within its deposit limit counting possible fills, a borrow stays within the utilisation and net borrow limits and is not made in a reduce-only token, the price is positive and within the configured band of the oracle, and the tokens taken come from the account's balance. Others may cancel an account's orders only when it is frozen, liquidatable, or the market is being closed.", "quantifier": "all account states, orders, banks, oracle states and dex outcomes", "why_tests_cant": "Health before and after must be compared for every state and every outcome of matching.", "anchors": ["programs/mango-v4/src/instructions/serum3_place_order.rs::serum3_place_order", "programs/mango-v4/src/instructions/serum3_liq_force_cancel_orders.rs"]}
{"id": "C62", "title": "Collateral fees are bounded and charged at most once per interval", "statement": "However often token_charge_collateral_fees is called, the seconds an account is charged for add up to at most the time passed, and each charge covers one to two intervals. A charge happens only if the account's liabilities at oracle prices reach 100 dollars; it is for each asset at most balance × (liabilities over assets, at most 1) × days × the bank's daily rate, where balances count as if spot orders were closed; the total is debited to the account's liability tokens in proportion to their liabilities, never more than the total, and collected by the banks. Otherwise nothing changes.", "quantifier": "all accounts, banks, rates, prices, intervals, times and call sequences", "why_tests_cant": "Rounding of five chained operations per token, the split over any number of tokens, and every schedule of calls.", "anchors": ["programs/mango-v4/src/instructions/token_charge_collateral_fees.rs::token_charge_collateral_fees_internal", "programs/mango-v4/src/health/cache.rs::HealthCache::assets_and_liabs"]}
{"id": "C63", "title": "Perp liquidation: conditions, fair amounts, not more than needed", "statement": "perp_liq_base_or_positive_pnl acts only on a liquidatable account without open orders or pending fills, by a liqor that is not itself being liquidated and ends with non-negative init health. The liqee's base position only shrinks toward zero, by at most what the liqor asked for; both sides trade at the oracle price minus (plus) the configured fees, base lots and quote are conserved up to the platform fee, which is never negative. The liqor takes over at most the requested pnl and only while the liqee's health pnl is positive, pays 1 minus the positive-pnl fee for it out of its settle token balance without tokens entering or leaving the bank, and receives at most the settle limit that goes with it. The liqee's liquidation-end health never falls, and it ends at most one lot's gain above zero (apart from rounding). It does not stop early: if positive pnl of the market counts, the liquidation ends with the whole position (or all that was asked for) taken, or with health within one lot's gain of zero.", "quantifier": "all accounts, markets, fees, weights, prices, requested amounts", "why_tests_cant": "Five dependent sizing steps with rounding, for every combination of weights, fees and signs; the bound must hold for whatever limits a liqor picks.", "anchors": ["programs/mango-v4/src/instructions/perp_liq_base_or_positive_pnl.rs::perp_liq_base_or_positive_pnl", "programs/mango-v4/src/instructions/perp_liq_base_or_positive_pnl.rs::liquidation_action", "programs/mango-v4/src/health/cache.rs::HealthCache::recompute_perp_info"]}
{"id": "C64", "title": "Deposits and withdrawals move exactly the stated tokens", "statement": "A deposit takes from the wallet exactly what the account's claim on the bank grows by (up to index rounding), a withdrawal and a forced withdrawal the other way round; nothing else of the account, other banks or orders changes. The amount is the requested one, or the whole balance rounded down, or at most the debt rounded up for reduce-only deposits. Without permission to borrow, or in a reduce-only bank, a withdrawal takes at most the balance and makes no loan; a loan costs exactly the origination fee and is made only within the utilisation and net borrow limits and with a good oracle. A delegate can only empty a position of a balance below one token beyond what it sends to the owner's own associated token account. Outside health regions a withdrawal succeeds only if the init health afterwards is non-negative or did not fall by a unit, and an account being liquidated accepts only deposits that end the liquidation. A deposit does not lower maintenance health (if no two spot markets reserve the same token). Deposit limits of bank and group hold afterwards.", "quantifier": "all accounts, banks, index values, amounts, oracle states and signers", "why_tests_cant": "Index rounding, dust, loans and health interact for every balance and weight; the health claim is about all portfolios.", "anchors": ["programs/mango-v4/src/instructions/token_deposit.rs::DepositCommon::deposit_into_existing", "programs/mango-v4/src/instructions/token_withdraw.rs::token_withdraw", "programs/mango-v4/src/instructions/token_force_withdraw.rs::token_force_withdraw"]}
{"id": "C65", "title": "Closing borrows by force takes a bounded price", "statement": "Borrows of a token are closed by force only if the token is marked for it, the account has such borrows, the liqor is not being liquidated and brings deposits of that token (it makes no loan), and the token taken in exchange allows borrows and has a liability weight that, times the fees, does not exceed that of the token repaid. The amount repaid is the smallest of the requested amount, the debt and the liqor's deposit; the liqee pays at most its oracle value times the fee factors of both tokens, the liqor receives at most that without platform fees, the difference is collected as fee, and no tokens enter or leave the banks. Neither the liqee's debt nor the liqor's deposit changes sign. If no funds are in spot orders and the amount repaid is a debt also counting free funds elsewhere, the liqee's liquidation-end health does not fall (up to rounding), and a liquidation ends exactly if that health is above -1.", "quantifier": "all accounts, banks, index values, prices, weights, fees and requested amounts", "why_tests_cant": "Health depends on the whole portfolio and on rounding at every index, price and weight; the comparison of weights must protect every account.", "anchors": ["programs/mango-v4/src/instructions/token_force_close_borrows_with_token.rs::token_force_close_borrows_with_token"]}
{"id": "C66", "title": "Token configurations stay valid and consistent, and only the right admin changes them", "statement": "After any sequence of token registrations, edits and added banks, every bank of a token satisfies the documented bounds (ordered interest curve, no negative rates, fees or weights, initial weights at least as strict as maintenance weights, reduce-only mode 0..2, tokens excluded from liquidation cannot be borrowed and have no stored collateral weight), all banks of a token have the same settings and follow the token's oracle. An edit changes exactly the requested settings. Registrations and new banks need the group admin; the security admin alone can change a token only by removing its initial collateral weight, making it more reduce-only, removing the platform liquidation fee or the collateral fee, or freezing the maintenance weights at their present values; it can change a perp market only by making it reduce-only or removing the weight of positive pnl, and a spot market only by making it reduce-only. Aborting a weight shift does not move the weights.", "quantifier": "all histories of instructions, all parameters (all floats including NaN and infinities), all signers, all times", "why_tests_cant": "the edit instruction has over forty optional parameters; the claim is about every combination and every order of edits", "anchors": ["programs/mango-v4/src/instructions/token_register.rs:token_register", "programs/mango-v4/src/instructions/token_edit.rs:token_edit", "programs/mango-v4/src/instructions/token_add_bank.rs:token_add_bank", "programs/mango-v4/src/instructions/perp_edit_market.rs:perp_edit_market", "programs/mango-v4/src/instructions/serum3_edit_market.rs:serum3_edit_market", "programs/mango-v4/src/state/bank.rs:verify", "programs/mango-v4/src/state/bank.rs:from_existing_bank"]}
{"id": "C67", "title": "Tokens listed without the group admin are harmless and limited in number", "statement": "A token listed by the fast listing admin cannot be borrowed, counts nothing as collateral at any time, cannot be taken by liquidators and is not insured; apart from name and oracles nothing about it can be chosen. In no week are there more such listings than the group allows. The fast listing admin lists spot markets only with price band 19 (base token not borrowable, without maintenance weight, quote token without deposit limit) or 1.", "quantifier": "all listings at all nondecreasing times, all limits", "why_tests_cant": "the quota is a statement about every distribution of listings over time", "anchors": ["programs/mango-v4/src/instructions/token_register_trustless.rs:token_register_trustless", "programs/mango-v4/src/accounts_ix/token_register_trustless.rs:TokenRegisterTrustless", "programs/mango-v4/src/state/group.rs:Group"]}
{"id": "C68", "title": "Perp orders respect reduce-only rules and health, and touch only their owner", "statement": "Placing a perp order changes no account but the owner's; the owner's settled lots do not change; what trades at once plus what is posted is at most the size asked for. A reduce-only order, and any order in a reduce-only market, never increases the position (with pending fills) and never changes its sign. In a reduce-only market an order not marked reduce-only is refused instead of cut, and over any history of instructions neither the longest nor the shortest position an account can reach with its open orders ever grows (unless it is liquidated, liquidates or is closed by force); an account without position and orders never gets any. Outside health regions an order is accepted only if init health afterwards, computed afresh, is not negative or did not get worse; accounts being liquidated must have recovered.", "quantifier": "all reachable markets, accounts, orders, prices and times; all histories in a reduce-only market", "why_tests_cant": "the exposure bound is about every interleaving of orders, fills, cancellations and event processing", "anchors": ["programs/mango-v4/src/instructions/perp_place_order.rs:perp_place_order", "programs/mango-v4/src/instructions/perp_place_order.rs:reduce_only_max_base_lots", "programs/mango-v4/src/health/cache.rs:recompute_perp_info"]}
{"id": "C69", "title": "Closing perp positions by force moves the smaller position at the oracle price", "statement": "Closing by force works only in a market marked for it, between a long and a short position. Lots equal to the smaller position change hands at the oracle price, so neither position changes its sign and one becomes zero; what one account receives the other pays; open interest falls by twice the lots; orders, pending fills and other accounts are untouched. The health of both accounts does not fall, if they have no open perp orders, no pending fills, settled funding and no funds in spot orders.", "quantifier": "all states, accounts, prices, weights within the configurable bounds", "why_tests_cant": "must hold for every pair of positions and every price", "anchors": ["programs/mango-v4/src/instructions/perp_force_close_position.rs:perp_force_close_position", "programs/mango-v4/src/state/mango_account_components.rs:PerpPosition"]}
{"id": "C70", "title": "The client library's maximum amounts keep the wanted health ratio and are nearly the largest", "statement": "The functions that compute how much can be borrowed, swapped or traded on a perp market down to a wanted health ratio never return a negative amount. A positive borrow amount leaves, in the computed health, a ratio above the wanted one and respects the net borrow limit; a borrow of less than a native token more is too much, or the ratio left is within 0.1 of the wanted one. The swap amount leaves a value above the wanted one with the same closeness (0.1 tokens), or is the best amount found if no amount reaches the wanted value, or is unlimited if swapping always raises health. The perp amount leaves at least the wanted ratio and one lot more is too much, or the ratio is within 0.1, or it is the amount that closes the position, if that is best. The search for a maximum ends after at most 130 rounds and finds the top of any function with one hill to within the step; the bisection always finds an answer on intervals of up to about 2^49 steps. Applying limits to a swap stays within the remaining net borrows, valued at the oracle price, and within the deposit limit. An account counts as liquidatable exactly if its maintenance health is negative, or its liquidation-end health once liquidation has begun.", "quantifier": "all health caches, banks, positions, prices and wanted ratios; all functions for the searches", "why_tests_cant": "a search result must be safe and near-maximal for every account and every non-linear health function, not for sampled ones", "anchors": ["programs/mango-v4/src/health/client.rs:max_swap_source_for_health_fn", "programs/mango-v4/src/health/client.rs:max_perp_for_health_ratio", "programs/mango-v4/src/health/client.rs:max_borrow_for_health_fn", "programs/mango-v4/src/health/client.rs:binary_search", "programs/mango-v4/src/health/client.rs:find_maximum", "programs/mango-v4/src/health/client.rs:apply_limits_to_swap"]}
{"id": "C71", "title": "Only the owner and the delegates the owner named control an account, and freezing stops them", "statement": "An instruction that needs a right to an account succeeds only with the signature of the account's owner, of the delegate the owner named last, or of the temporary delegate the owner named last, until the time the owner gave, which ends less than a week after the naming. Expanding, editing, closing an account and checking its sequence number are for the owner alone; the owner never changes; a delegate cannot name delegates. The instructions that need no right to an account are exactly: health bookkeeping, resizing, processing of perp events, liquidation and forced steps against it, settlement, fees, deposits by others, and starting or executing its conditional swaps. Only the group's admin freezes accounts; while an account is frozen, for a week unless the admin unfreezes it, no instruction on it succeeds, save event processing, forced cancellations, resizing, and the gaps found; afterwards the owner can use it again. A sequence number is accepted once in 256 checks, so of several transactions that check the same number only one goes through.", "quantifier": "all histories of instructions by any signers, with time passing", "why_tests_cant": "rights must hold for every history of naming, expiry, freezing and admin changes and for all instructions", "anchors": ["programs/mango-v4/src/state/mango_account.rs:is_owner_or_delegate", "programs/mango-v4/src/state/mango_account.rs:is_operational", "programs/mango-v4/src/instructions/account_edit.rs:account_edit", "programs/mango-v4/src/instructions/account_toggle_freeze.rs:account_toggle_freeze", "programs/mango-v4/src/instructions/sequence_check.rs:sequence_check", "programs/mango-v4/src/accounts_ix"]}
{"id": "C72", "title": "Settling perp profits, losses and fees only moves what is owed, and does not make the payer unhealthy", "statement": "Settling pnl between two different accounts moves one positive amount, at most the first account's profit and at most the second's loss (funding paid, at the oracle price): the perp positions move by it in opposite directions, and in the settle token the first account receives it less the settler's fee, the second pays it, the settler gets the fee. No loan fee is charged, no token enters or leaves the bank, and no other position of anyone changes. The paying account's health other than initial does not fall (if it has no fills pending); its settle health was positive before and stays above minus two units of 2^-48. The receiving account's health falls at most by the value of the fee, and not at all if it is its own settler. Settling fees moves at most the requested amount, at most the market's accrued fees and at most the account's loss into the market's settled fees; the account's health other than initial does not fall and its initial health is not negative afterwards. The admin can withdraw at most the fees settled and not yet withdrawn, at most what is in the vault; over any history withdrawn fees never exceed settled fees and never come out of users' tokens. The amount settled is exactly the smallest of the profit, the loss, the two settle limits and what the payer's settle health allows, and the last is as large as it can be: anything more would bring the settle health to zero or below. Settled fees are exactly the smallest of the account's loss, its settle limit, the market's accrued fees and the request.", "quantifier": "all accounts, markets, banks, prices, amounts, settlers (including one of the two accounts or one without a position), and all histories of fee settlements, withdrawals and token movements", "why_tests_cant": "the bound on the settled amount comes from the health of an arbitrary account, and the fee from another; the claims must hold for every account and rounding", "anchors": ["programs/mango-v4/src/instructions/perp_settle_pnl.rs:perp_settle_pnl", "programs/mango-v4/src/instructions/perp_settle_fees.rs:perp_settle_fees", "programs/mango-v4/src/instructions/admin_perp_withdraw_fees.rs:admin_perp_withdraw_fees", "programs/mango-v4/src/health/cache.rs:perp_max_settle"]}
{"id": "C73", "title": "Negative perp pnl is liquidated fairly, and perp losses reach the insurance fund and other traders only below zero health", "statement": "Negative pnl of an account can be taken over, and its loss covered, only when nothing else of it is left to liquidate and it is liquidatable. The liqor receives exactly the settled amount in settle tokens from the account, and takes over exactly the pnl; the amount is the smallest of the request, what the settle limit allows, and what the account's health allows. Only if all of that was settled and pnl is still negative may the insurance fund pay: at most its balance, and the tokens paid are worth the pnl taken over plus the liquidation fee, to the token. Only when the fund is used up is a loss socialized over all positions. Altogether the pnl is never turned positive, and the liqor never takes over more than it asked for. Settling does not change the account's health; the rest is done only below zero health, raises it, and never above zero (one unit of 2^-48). If the request did not limit it and the fund is used up, then either no negative pnl is left or health is back at zero. The account leaves liquidation exactly if it ends above -1; the liqor ends with non-negative init health.", "quantifier": "all accounts, markets, banks, prices, weights, settle limits, insurance balances and requested amounts", "why_tests_cant": "the amounts come from the health of an arbitrary account with two search-for-zero computations and three roundings; tests use a handful of balances", "anchors": ["programs/mango-v4/src/instructions/perp_liq_negative_pnl_or_bankruptcy.rs:perp_liq_negative_pnl_or_bankruptcy", "programs/mango-v4/src/instructions/perp_liq_negative_pnl_or_bankruptcy.rs:liquidation_action", "programs/mango-v4/src/state/perp_market.rs:socialize_loss"]}
{"id": "C74", "title": "Orders can always be cancelled, cancelling touches nothing else, and never lowers health", "statement": "In every state that can arise, an owner can cancel any open perp order of the account by its id, or the first one with a client id, and all orders of a market or of one side of it, up to a limit greater than zero: the call succeeds, the slots become free, exactly those orders disappear from the book, their remaining lots no longer count as open, and nothing else (positions, other slots, other accounts' orders, the event queue, the market) changes. An order that is not there is reported as not found. If the limit is not smaller than the number of orders, no order of the account is left on the side, and what still counts as open is exactly what is in fill and out events not processed yet. Cancelling never lowers what the position counts in health, nor any of the three healths of an account without funds in open spot orders. Anybody may cancel all orders of an account exactly if the account is frozen, or the market is closed by force, or the account is liquidatable; afterwards the account is marked as being liquidated exactly if it was liquidatable and its liquidation-end health is still at most -1.", "quantifier": "all reachable states of a perp market with any number of accounts, orders and pending events; all order ids, client ids, sides and limits; all weights, prices and token balances", "why_tests_cant": "whether a slot's order is still on the book depends on the whole history of fills, expiries, evictions and events not yet processed; health changes with rounding for every price and weight", "anchors": ["programs/mango-v4/src/state/orderbook/book.rs:cancel_all_orders", "programs/mango-v4/src/state/orderbook/book.rs:cancel_order_by_slot", "programs/mango-v4/src/instructions/perp_cancel_order.rs", "programs/mango-v4/src/instructions/perp_cancel_order_by_client_order_id.rs", "programs/mango-v4/src/instructions/perp_cancel_all_orders.rs", "programs/mango-v4/src/instructions/perp_liq_force_cancel_orders.rs"]}
{"id": "C75", "title": "Placing an order removes other orders of its own side only for the stated reasons, and gets an id of its own", "statement": "Placing an order takes at most two other orders off its own side of the book: one whose time is up, and, only when the side is full, the order that is worst in price and time, which must be strictly worse than the new one. Each removed order is reported in an event with its full remaining size, so its owner's slot is freed. If nothing is posted, the own side is unchanged. The id of a posted order is one that no order on the book has.", "quantifier": "all markets in every reachable state, all orders, clocks and oracle prices", "why_tests_cant": "it concerns the interplay of expiry, capacity and priority for every content of the order tree", "anchors": ["programs/mango-v4/src/state/orderbook/book.rs:new_order", "programs/mango-v4/src/state/orderbook/bookside.rs:remove_worst", "programs/mango-v4/src/state/orderbook/bookside.rs:remove_one_expired"]}
{"id": "C76", "title": "The book's quotes are right and an order gets what they promise", "statement": "The quantity reported for a price is the total size of the orders that can trade at that price or better; the best price is that of the best order that can trade; the impact price of a quantity is the price at which the quantity is first fully offered, and is missing exactly when the side does not hold it; the amount reported for a quantity is the price of all orders better than that level plus the rest at that level; the quantity reported for an amount is the largest that costs at most the amount. An order for n lots whose limits do not bind and whose owner has no order on the other side trades exactly n lots for exactly the reported amount.", "quantifier": "all books with any number of fixed and oracle-pegged orders, all clocks, oracle prices, quantities, prices and amounts", "why_tests_cant": "the walk merges two trees of any size and skips expired and invalid orders; the statement ranges over all their contents", "anchors": ["programs/mango-v4/src/state/orderbook/bookside.rs:quantity_at_price", "programs/mango-v4/src/state/orderbook/bookside.rs:best_price", "programs/mango-v4/src/state/orderbook/bookside.rs:impact_price", "programs/mango-v4/src/state/orderbook/bookside.rs:matched_amount", "programs/mango-v4/src/state/orderbook/bookside.rs:matched_quantity", "programs/mango-v4/src/state/orderbook/book.rs:new_order"]}
{"id": "C77", "title": "The fills feed reports each fill of a perp market exactly once, in order, and takes back those of abandoned forks", "statement": "Whatever versions of a market's event queue the fills service gets to see, in any order: it ignores stale versions, and a client that adds up its reports (new minus revoked) has counted each fill that happened since the first version exactly once if the fill is on the last version's chain and zero times if it is not, as long as versions are not more than the queue's capacity apart. If the chain never forks, the reports are exactly the fills since the first version in the order in which they happened, none revoked. A head update is sent exactly when the position of the oldest unconsumed event changed, with the numbers of consumed events if the queue is not full; the checkpoint holds the fills still in the ring. Every market's event queue has such a history. The service stops exactly when the number of events consumed is a multiple of the capacity in one of the two versions it compares.", "quantifier": "all sequences of account versions, all histories of the queue with forks of limited depth, all fills", "why_tests_cant": "the ring wraps, versions are skipped and forks replace parts of it at any point; the statement ranges over all these histories", "anchors": ["bin/service-mango-fills/src/fill_event_filter.rs:publish_changes_perp", "bin/service-mango-fills/src/fill_event_filter.rs:init", "programs/mango-v4/src/state/orderbook/queue.rs:EventQueue"]}
{"id": "C78", "title": "A subscriber of the order book feed that applies the updates to its checkpoint has the book's levels", "statement": "Whatever accounts the service sees and however its tasks interleave: a subscriber that got a checkpoint and applies the level updates it receives ends with exactly the levels of the last bids and asks the service read, whether it subscribed before or after the updates in the checkpoint. A level's quantity is the total of the orders that can trade at that price; the service reads a perp market's book side whenever the account is newer. When the oracle alone is newer, the bids are read again and the asks are not. An update of orders, when there is one, says exactly which orders came and went, and there is one exactly if orders both came and went.", "quantifier": "all sequences of book and oracle accounts and all schedules of the filter, the receiver and the subscriber", "why_tests_cant": "it ranges over all books and all interleavings of two tasks and a subscriber", "anchors": ["bin/service-mango-orderbook/src/orderbook_filter.rs:publish_changes", "bin/service-mango-orderbook/src/orderbook_filter.rs:init", "bin/service-mango-orderbook/src/main.rs:handle_commands", "bin/service-mango-orderbook/src/main.rs:main"]}
{"id": "C79", "title": "A health region only postpones an account's health check: none is left open, and its effect on health is checked as a whole", "statement": "Start from a state in which no account is in a health region. Every transaction that succeeds consists of instructions outside regions and of regions: a region begin for one account as a top-level instruction, then only instructions of mango from the fixed list (placing and cancelling perp and spot orders, settling spot funds), then the region end for the same account; regions do not nest or overlap, and while one lasts that account and no other is marked. The account's init health after the region is non-negative, or not lower than before it (below -1000 native units: lower by less than one unit, never below the next whole number). After any history of transactions, failed ones included, no account is in a region. An account with non-negative init health before a transaction has it after, whatever its health was in between. A begin called by another program, without a matching end, with another region or a foreign instruction before its end, or for an account already in a region fails. Opening a region succeeds exactly if mango is called directly, the transaction goes on with instructions that place or cancel perp or spot orders or settle spot funds up to an end for the same account, the account is in no region and passes the check that starts every such instruction.", "quantifier": "all states, all transactions (lists of instructions of mango and of other programs that may call mango), all histories of transactions", "why_tests_cant": "it ranges over all transactions an attacker can compose, including calls from other programs", "anchors": ["programs/mango-v4/src/instructions/health_region.rs:health_region_begin", "programs/mango-v4/src/instructions/health_region.rs:health_region_end", "programs/mango-v4/src/accounts_ix/health_region.rs"]}
{"id": "C80", "title": "The health accounts the client library passes are the ones the program needs", "statement": "If the library's view of the group matches the chain: for every account and every instruction that affects given tokens and perp markets, the account list the library derives is accepted by the program, both read in fixed order and scanned. It covers every active token position, perp position and spot open orders account of the account, plus positions newly made for the affected tokens (with the settle tokens of the perp markets), and no other positions; the banks asked for are writable, and only those. For each position the program finds exactly the position's own bank, market or open orders account, and gets the price that its oracle, fallback oracle and quote feeds on chain give. The list for two accounts does the same for the positions of both. The price can be missing only when the fallback is needed and the library does not know it, or it or its quote feed is itself the oracle of another position, or the token's own oracle is a pool. The fallback oracles the client knows are exactly those its configuration asks for.", "quantifier": "all accounts reachable by any history, all affected tokens and markets, all oracle contents and fallback settings", "why_tests_cant": "the list depends on every combination of positions, shared oracles and fallbacks; a wrong order or omission only shows for some of them", "anchors": ["lib/client/src/context.rs:derive_health_check_remaining_account_metas", "lib/client/src/context.rs:derive_health_check_remaining_account_metas_two_accounts", "lib/client/src/context.rs:derive_fallback_oracle_keys", "programs/mango-v4/src/health/account_retriever.rs"]}
{"id": "C81", "title": "A passed HealthCheck holds for the whole account", "statement": "For every account without funds reserved in spot orders and every list of banks passed to HealthCheck: if the check passes with a minimum for init, maint or liquidation-end health, then the account's health of that kind computed from all its tokens is at least that minimum, whatever the prices of the tokens whose banks were left out. The same holds for the ratio kinds with a positive minimum; with minimum zero the assets fall short of the liabilities by less than 1/(100*2^48) of the liabilities. With funds reserved in spot orders, each token in at most one such market, it holds up to the rounding of the sums. A passed check has seen a usable bank for every token owed and every settle token of a perp position; a minimum that is not a finite number never passes; and if all banks are passed, the check passes exactly if the value reaches the minimum.", "quantifier": "all accounts, banks, oracle prices, sets of missing banks and minimum values", "why_tests_cant": "the claim is about all prices of tokens the check never sees", "anchors": ["programs/mango-v4/src/instructions/health_check.rs:health_check", "programs/mango-v4/src/health/cache.rs:new_health_cache_skipping_missing_banks_and_bad_oracles", "programs/mango-v4/src/health/cache.rs:health_ratio"]}
{"id": "C82", "title": "A token or market index always means the same thing", "statement": "For every history of listing, adding banks, delisting, creating and closing perp and spot markets and group edits: two banks of a group have the same token index exactly if they have the same mint; every bank and vault is named by the mint info of its mint, and everything a mint info names exists and belongs to its token; two perp markets have different indexes and share no book side or event queue, and the two book sides of a market are different accounts; two spot markets have different indexes and different external markets. As long as the group is not in testing mode no listed token, bank, perp market or spot market disappears or changes its index, and in a group that never was, the base and quote tokens of a spot market are those of the external market's mints. A token can be listed under an index exactly if neither the index nor the mint is in use.", "quantifier": "all histories of listing and delisting instructions with all arguments and accounts passed", "why_tests_cant": "the claim is about every order of listing, delisting and reuse of addresses", "anchors": ["programs/mango-v4/src/instructions/token_register.rs", "programs/mango-v4/src/instructions/token_register_trustless.rs", "programs/mango-v4/src/instructions/token_add_bank.rs", "programs/mango-v4/src/instructions/token_deregister.rs", "programs/mango-v4/src/instructions/perp_create_market.rs", "programs/mango-v4/src/instructions/perp_close_market.rs", "programs/mango-v4/src/instructions/serum3_register_market.rs", "programs/mango-v4/src/instructions/serum3_deregister_market.rs"]}
{"id": "C83", "title": "The insurance fund pays only for bankruptcies or to the admin", "statement": "At any time a group has exactly one insurance vault, holding tokens of its insurance mint, never a negative amount. Only the admin withdraws from it (the amount asked for or all there is, all to the destination), replaces it (all its tokens go to the destination, the old vault is closed, the new one is empty) or closes it with the group (testing groups, only empty). A token or perp bankruptcy takes from it exactly the amount its liquidation settles with, at most what it has and nothing for tokens or markets that are not covered, into the vault of a bank of the insurance mint. So over any history without admin instructions the fund is what it was, plus what was sent to it, minus what bankruptcies were paid.", "quantifier": "all histories of group administration, bankruptcies, transfers and creation of token accounts with all arguments and accounts passed", "why_tests_cant": "the claim is about every history and every choice of accounts passed, including vaults passed in place of others", "anchors": ["programs/mango-v4/src/instructions/group_create.rs", "programs/mango-v4/src/instructions/group_change_insurance_fund.rs", "programs/mango-v4/src/instructions/group_withdraw_insurance_fund.rs", "programs/mango-v4/src/instructions/group_close.rs", "programs/mango-v4/src/instructions/token_liq_bankruptcy.rs", "programs/mango-v4/src/instructions/perp_liq_negative_pnl_or_bankruptcy.rs"]}
{"id": "C84", "title": "The liquidator works on each candidate once, and never forgets one", "statement": "For every interleaving of scans, signals and workers of the liquidator: no account is being liquidated by two workers at once and no listed conditional swap is executed by two; only listed candidates are worked on; batches hold 1 to 20 swaps, and the worker kept for liquidations executes none; a woken worker always gets a task (no underflow of the counters) and takes a waiting liquidation first. While a candidate waits, a signal for it is on its way or a worker is about to look; every step other than finding a candidate leaves less work, and when nothing more can happen all candidates have been handled; over any history each candidate is worked on exactly as often as it was newly listed. If accounts change only between scans, then whenever the liquidation job waits with nothing new every account was checked after its last change. Exceptions shown: a swap found again with another volume is executed twice at once; a change during a scan is forgotten until the next change.", "quantifier": "all numbers of workers and all interleavings of finding candidates, sending and receiving signals, pulling and finishing tasks", "why_tests_cant": "the claims are about all schedules of concurrent tasks", "anchors": ["bin/liquidator/src/tx_sender.rs", "bin/liquidator/src/liquidation_state.rs", "bin/liquidator/src/tcs_state.rs", "bin/liquidator/src/main.rs"]}
{"id": "C85", "title": "The caching account fetcher returns the right data under all schedules", "statement": "For every interleaving of callers, answers, failures and clearings of the client library's account cache: a call for one account returns data of that account, cached or from a request that was still running when the call joined it and that read the data after it started; at most one request runs for the same account, set of accounts or program; what a request delivers is cached until the cache is cleared, a failure never is and the next call starts a new request; the call for a program's accounts never panics and returns the accounts of the last answer; a call for several accounts returns all in order if all are cached and otherwise asks for exactly those that are not. If no request runs when the cache is cleared, all data returned later was read after that. Exceptions shown: a request running at the clearing brings old data back, and a call for several accounts of which some are cached returns only the others.", "quantifier": "all interleavings of calls, answers of the underlying fetcher (data or errors) and clearings", "why_tests_cant": "the claims are about all schedules of concurrent callers", "anchors": ["lib/client/src/account_fetcher.rs"]}
{"id": "C86", "title": "The accounts with the largest settleable perp pnl are found", "statement": "For every set of accounts, both directions and every count: the client library's search for settlement partners returns the accounts from which most can be settled (gains as they are, losses up to what the account's health allows), as many as asked for or all there are with pnl of that sign, largest first, each with the amount that can be settled; no account left out has more to settle than one that is returned. This although the expensive limit from the health is only computed until enough positions in the order are certain. Exception shown: accounts from which nothing can be settled are returned if there are not enough others.", "quantifier": "all lists of accounts with their limited pnl and health limits, both directions and all counts", "why_tests_cant": "the shortcut must be right for every distribution of pnl and health limits", "anchors": ["lib/client/src/perp_pnl.rs"]}
{"id": "C87", "title": "The settler's plan respects what accounts can settle and its batches lose nothing", "statement": "For every perp market, set of accounts with gains and losses, and every order of equal priorities: each planned settlement is between an account with gains and the account which, after what was planned before, has the largest loss left, and is expected to settle all that is left of one of the two; it is worth it (positive, and at least the threshold if the flat fee is paid); no account is planned to settle more than it has; planning ends and never plans more settlements than there are accounts; accounts are taken by descending fee, exactly those with a settlement are marked as recently settled, and for these and the next one nothing more that is worth it is possible. The instructions are all sent, each once and in order, in transactions that are not empty and within the limits or of a single instruction, and this fails only if an instruction does not fit on its own. Exceptions shown: an account that cannot be settled, for example one with a gain of exactly the threshold, keeps all accounts after it from being settled; an instruction that is too large is sent anyway if it is not the first of its batch.", "quantifier": "all markets' thresholds and fees, all lists of accounts with their amounts and fees, all priority queues that return a largest element; all sequences of instructions and limits", "why_tests_cant": "the claims are about all combinations of gains and losses and all sequences of instructions", "anchors": ["bin/settler/src/settle.rs"]}
{"id": "C88", "title": "Error tracking skips exactly after repeated recent errors", "statement": "For every history of recorded errors, clearings, wipes and updates: a type and key are skipped only if at least as many errors as the threshold for this type were recorded for just this type and key since they were last cleared, the last one less than the skip duration ago; conversely they are skipped, with all these errors counted, if that many errors were recorded since the last clearing, each less than the keep duration after the one before and the last one less than both durations ago. What is reported are the number of the most recent errors, the time of the last one and the last different messages, no more than configured, in order. Shown: the count does not start again after a pause, so one more error is enough to be skipped again.", "quantifier": "all histories of calls with their times, all configurations, types, keys and messages", "why_tests_cant": "the claim is about all histories", "anchors": ["lib/client/src/error_tracking.rs"]}
{"id": "C89", "title": "A liquidatable account always has a next step, and the liquidator takes one the program accepts", "statement": "For every account with its banks, markets, prices, orders and positions: (1) an account with negative maintenance or liquidation-end health from which neither orders, nor perp base positions, fills or positive pnl, nor a pair of tokens are left to liquidate owes a token or has a loss in a perp market, so that one of the two bankruptcy instructions applies; the liquidation phases are complete. (2) The liquidator bot sends an instruction whose conditions the account meets: perp orders are cancelled before spot orders, base positions and positive pnl are taken only without orders and without unprocessed fills in that market, tokens are liquidated only from a token the account owns to one it owes, losses are taken over and debts bankrupted only if nothing else is left. (3) If its configuration restricts nothing the account holds, it never gives up on an account that can be liquidated: it sends a transaction or waits, and it waits only for unprocessed perp fills and if nothing else can be done. (4) It takes the token with most to take (preferring those with a weight and more than a dollar), repays the largest debt, and starts bankruptcies with the largest loss or debt. (5) Forbidden tokens are never liquidated or bankrupted, at least one token of a pair is on the list of allowed ones, and base positions are only taken in allowed perp markets. Exceptions shown: a forbidden token held by the account makes the bot look at wrong balances and give up; forbidden perp markets are not observed for losses; base positions are compared without lot sizes.", "quantifier": "all accounts, banks, markets, prices, liquidator configurations and random choices", "why_tests_cant": "the claims are about all combinations of positions in all phases of a liquidation", "anchors": ["bin/liquidator/src/liquidate.rs", "programs/mango-v4/src/health/cache.rs: require_after_phase1_liquidation, require_after_phase2_liquidation", "programs/mango-v4/src/health/client.rs: is_liquidatable"]}
{"id": "C90", "title": "The liquidator executes conditional swaps as far as bank limits, its own means and its profit target allow", "statement": "For every conditional swap, with any banks, prices, positions and configuration: (1) the amounts the liquidator tries are the largest up to the unlimited ones for which the new borrows and deposits caused by the execution fit into the net borrow and deposit limits of the two banks; a swap is skipped only if the limits reduce more than a dollar's worth to less than a dollar's worth; the computation never underflows. (2) The borrow room is exact: borrowing up to it keeps a bank within its net borrow limit, one token more breaks it, provided the stable price is not above the oracle price and net borrows in the window are not negative. (3) A swap that has not expired is taken up exactly if the bought token is allowed by the configuration, the program would accept triggering it, and the taker price is at least the oracle price and covers the estimated cost of the opposite trade plus the wanted profit. (4) An execution buys at most what the owner's side allows, what the liquidator can provide, and what the configured amount per trigger is worth; its volume is at most the configured amount and at most the value of either side; the minimum taker price sent along covers the quoted opposite trade and the profit. Exceptions shown: the sold token is not checked against the configuration's lists; the room ignores the stable price and is unlimited after negative net borrows; expired swaps are not closed while limits are exhausted.", "quantifier": "all swaps, banks, prices, positions, configurations and quotes", "why_tests_cant": "the amounts depend on the interplay of two limits on two banks with two positions", "anchors": ["bin/liquidator/src/trigger_tcs.rs: tcs_max_liqee_execution, tcs_is_interesting, tcs_max_volume, prepare_token_conditional_swap_inner2", "programs/mango-v4/src/state/bank.rs: remaining_net_borrows_quote, remaining_deposits_until_limit"]}
{"id": "C91", "title": "The liquidator's run over conditional swaps stays in budget, tries each once, ends, and leaves nothing out that fits", "statement": "For every list of swaps found and every order in which swaps are picked and preparations end, with any results: (1) no iteration overflows, underflows or deadlocks, and with n swaps the run ends after at most 4n + 1 iterations. (2) Each swap is tried at most once and executed at most once; swaps whose volume is the mark (the largest u64) are not tried. (3) There are at most 32 executions, with running preparations never more than 32 at a time; the volume of all executions but the last is below the budget, so the total is below twice the budget. (4) The run waits only if it must, and when it ends with fewer than 32 executions and budget left, no preparation is running and every swap not tried is too large for what is left. (5) In whatever order the executions land, the liquidator's account can get positions for all their tokens; an execution is left out only if it needs a token for which no slot is left; executions that only close expired swaps are always sent.", "quantifier": "all lists of swaps, all choices of the random selection, all orders and results of preparations, all liquidator accounts", "why_tests_cant": "the schedule of parallel preparations is nondeterministic; the claims are invariants of all schedules", "anchors": ["bin/liquidator/src/trigger_tcs.rs: execute_tcs, prepare_job", "programs/mango-v4/src/state/mango_account.rs: ensure_token_position"]}
{"id": "C92", "title": "Health never overstates what an account is worth, and reported equity is right", "statement": "(1) If asset weights are at most 1 and liability weights at least 1, then whatever an account holds - deposits, borrows, spot orders, perp positions and orders - its init, liquidation-end and maintenance health are each at most what it is worth at oracle prices: deposits minus borrows, all funds in open orders accounts, and the pnl of perp positions. Rounding matters only for funds reserved by spot orders, by about 2^-48 of them plus the error of one f64 division; without such funds the inequality is exact. (2) So an account whose health of any type is not negative owns at least what it owes. (3) The equity reported for an account lists each token it has a position or open orders account in exactly once, with position and open orders funds at the oracle price; the values add up to what tokens and spot orders are worth, less than 2^-48 per position too low; perps are left out. (4) Both healths that ComputeAccountData logs are at most the logged equity plus the perp positions. (5) The program does not check that weights are on the right side of 1: with an asset weight of 1.5, which it accepts, an account that owes more than it owns can be healthy.", "quantifier": "all accounts, banks, markets, prices, health types and float roundings with relative error up to 1/5", "why_tests_cant": "it bounds a rounded computation over arbitrary positions, with the worst case over order executions, by an exact sum; no finite set of accounts shows that", "anchors": ["programs/mango-v4/src/health/cache.rs: new_health_cache, health, Serum3Info, PerpInfo", "programs/mango-v4/src/state/equity.rs: compute_equity", "programs/mango-v4/src/instructions/compute_account_data.rs", "programs/mango-v4/src/i80f48.rs: checked_div_f64_precision"]}
{"id": "C93", "title": "The liquidator's quote cache gives the lowest price seen, sends one request while it knows none, and never deadlocks", "statement": "For every number of simultaneous calls and every order in which they go on and the quote service answers (with any amounts or errors): (1) the price cached for a pair is the lowest price any finished call for it was quoted, and there is none exactly when no call was. (2) As long as no price of a pair is known, at most one request for it is under way. (3) A call is turned away without a request only if every price known for its pair is above the call's maximum, and it is told the lowest. (4) A quote that is handed out is the answer to the call's own request, with a price not above the maximum (or an answer of nothing for nothing, which has no price); a refusal names a price above it. (5) If the service offers nothing better than P and all callers want less than P, a single request is sent for the pair however many calls there are. (6) A call that has not finished can go on or waits for an answer to a request that is under way; it needs at most three steps. (7) A route through the collateral is given up without requests only if every combination of known prices of its two legs is above the maximum, is accepted with the product of the prices of its own two quotes if that is at most the maximum, and fails if a leg could not be quoted.", "quantifier": "all schedules of all numbers of calls, all pairs, maxima, answers and errors; all roundings of f64 with relative error at most 1/5", "why_tests_cant": "the interleavings of asynchronous calls and answers cannot be enumerated by tests", "anchors": ["bin/liquidator/src/trigger_tcs.rs: JupiterQuoteCache, JupiterQuoteCacheEntry, quote, quote_inner, unchecked_quote, cached_price, quote_collateral_swap"]}
{"id": "C94", "title": "The liquidator's rebalancer reduces positions within its price limits, and cannot close open orders accounts", "statement": "For every perp position, order book, balance, price, configuration and list of swap routes: (1) an order for a perp position is a reduce-only order on the side that reduces it, for exactly the lots the bot's own orders on that side do not cover yet, at the oracle price moved by the liquidation fee (rounded down to a price lot), and is sent only if the book offers something at that price; pnl is settled only without base lots, in the direction of its sign and with the account with the largest opposite pnl; a position is closed only if it is empty. (2) With swaps: a borrow is bought back for its value times the configured excess, up to rounding and at most for one token unit and one dust threshold (two quote units' worth) more; of a deposit above the dust threshold 99% are sold; otherwise nothing is swapped. (3) With limit orders: a borrow is bought with a bid and a deposit sold with an ask, for the whole lots in it, or for one lot if it is a smaller borrow, at the oracle price moved by the configured distance (rounded down to a price lot), and the quote limit covers the order by at most 2%. (4) In both modes a token is withdrawn only if that is allowed, it is not in use and its last known balance is positive and dust; the quote token and tokens to skip are left alone. (5) The swap route taken fits into a transaction, and every route that gains more at oracle prices does not; if none is taken, none fits or preparing one failed (which drops the others, a defect). (6) The transaction that closes and settles an open orders account never succeeds, and while the bot has one without reserved funds no token is rebalanced (a defect).", "quantifier": "all positions, books, prices, balances, lot sizes, configurations, routes and accounts; all roundings of f64 with relative error at most 1/1000", "why_tests_cant": "the space of balances, prices and routes cannot be enumerated by tests, and the bot has none", "anchors": ["bin/liquidator/src/rebalance.rs: determine_best_swap_tx, rebalance_tokens, unwind_using_limit_orders, close_and_settle_openbook_orders, unwind_using_swap, rebalance_perp"]}
{"id": "C95", "title": "The keeper consumes what it saw, charges whom the program would charge, and batches without loss", "statement": "For every market history, accounts, times, instructions and limits: (1) The keeper passes exactly the accounts named by the first ten pending events of a perp market, each once, and sends nothing exactly if there are none. (2) If other instructions are executed in between, in any order, and its own then succeeds, it consumes at most eight events, among them all it had seen and that nobody consumed meanwhile (up to eight), and it stops earlier only at the end of the queue or at an event that names an account it did not see. (3) It sends an account to have collateral fees charged exactly if the program would act on it, now or whenever the instruction is executed, except that an account whose fee becomes due in this second, or whose interval was never started while the clock is within one interval of 1970, is left for later. (4) The transactions contain each account's instructions once and in order; one with more than one account's is within the size and compute limits; and a new one is begun only if the next instructions do not fit into the last. If already the first do not fit an empty transaction is sent before them (a defect). (5) Each token that is not closed is updated by exactly one loop, of at most eight tokens.", "quantifier": "all reachable markets, all instruction sequences between the keeper's look and its instruction, all times and intervals, all lists of instructions, sizes and limits", "why_tests_cant": "the keeper has no tests, and what happens between its look and its instruction cannot be enumerated", "anchors": ["bin/keeper/src/crank.rs: runner, loop_consume_events, charge_collateral_fees_inner, send_batched_log_errors_no_confirm", "programs/mango-v4/src/instructions/perp_consume_events.rs: perp_consume_events"]}
{"id": "C96", "title": "The settler starts the token conditional swaps that the program accepts", "statement": "For every swap, bank, position, price and time: (1) If the program accepts the start of a swap, the settler's check of the same state at the same time says yes, unless the deposit limit cuts the incentive or less than one native unit of it has to be borrowed. (2) If the check says yes, then the program's own conditions on type, expiry, start and price hold, and the payment of the incentive fails neither because of the net borrow limit, nor because of the owner's refusal of borrows, nor because of a reduce-only mode, unless deposits are reduce-only (the check does not look at this, at the owner's health or at its liquidation). (3) In a pass it handles exactly the swaps of accounts of its group, without too many errors, that the check does not refuse; those whose check ended with an error are kept (a defect). (4) They are put into groups of at most eight, each in exactly one; a group's transaction starts its first swaps, needs no more than the free token positions, and leaves out only those whose instruction could not be prepared and, once all free positions are taken, the first with another token and all after it. (5) It withdraws the bot's balance of each of the group's sell tokens once.", "quantifier": "all swaps, banks, positions, prices, times, lists of accounts and swaps, and numbers of free positions", "why_tests_cant": "the settler has no tests; agreement with the program must hold for every state", "anchors": ["bin/settler/src/tcs_start.rs: run_pass_inner, is_tcs_startable", "programs/mango-v4/src/instructions/token_conditional_swap_start.rs: token_conditional_swap_start"]}
{"id": "C97", "title": "The crank service reads the pending events, names their accounts, and would consume them", "statement": "(1) For every reachable perp market, the service's sink passes over a queue exactly if it holds no fill and at most two other events; otherwise it names the accounts of the first ten events, each once. If its instruction is executed, after any other instructions, every one of the first eight events it had seen is consumed; consumption stops earlier only at the end of the queue or at an event with an account it did not see. (2) For every history of pushes and pops of a spot market's event queue, what the sink reads out of the ring buffer is exactly the pending events, in order; it passes over them exactly if there is no fill and at most two others, and otherwise names their owners, each once, in order, with the number of events as limit. (3) A defect: the sinks look markets up by queue in a map from market to queue, so every update that is not passed over panics, and nothing is sent; with the map the other way round the instruction would name the queue's own market. Markets of OpenBook are paired with their own queues if all of them exist (if one does not, those after it are paired with the wrong ones).", "quantifier": "all reachable perp markets, histories of the spot queues, interleaved instructions, maps and keys", "why_tests_cant": "the service has no tests; the ring arithmetic must hold for every history", "anchors": ["bin/service-mango-crank/src/mango_v4_perp_crank_sink.rs: MangoV4PerpCrankSink::process", "bin/service-mango-crank/src/openbook_crank_sink.rs: OpenbookCrankSink::process", "bin/service-mango-crank/src/main.rs: main"]}
{"id": "C98", "title": "The program's memory allocator gives out separate, aligned blocks inside the heap", "statement": "For every history of allocations (of any size and power-of-two alignment) and of writes to the blocks given out, on a heap of any size: a new block is aligned as asked, lies inside the heap and past the allocator's own word, overlaps no block given out before, and allocating it does not change the content of any other block, although the allocator writes a zero behind each new block. An allocation succeeds exactly if the aligned block ends before the last byte of the heap and of the heap's region, and otherwise ends the transaction; sizes near 2^64 cannot wrap around. The reported use is the distance from the heap's start to the end of the latest block, and grows by less than the size plus the alignment.", "quantifier": "all histories of allocations and writes, sizes, alignments, heap sizes", "why_tests_cant": "memory safety must hold for every history; the repo has no test of the allocator, which does not even exist outside of the chain", "anchors": ["programs/mango-v4/src/allocator.rs: BumpAllocator::alloc, used, heap_used"]}
{"id": "C99", "title": "The pnl service ranks accounts correctly when it answers, but panics or knows none", "statement": "(1) The pnl the service stores for an account's position is that of positions without base only: a gain as it is, a loss up to what the account's health allows to settle. (2) For every stored state, market, limit, order and every way of sorting equal entries: if the service answers, the answer has as many accounts as asked for (at most 20) or all there are, each with its stored pnl, in the requested order, and no account left out has a pnl that should have come first. (3) Defects: asked for the lowest pnl, it panics exactly if one of the accounts has no pnl in that market; asked for the highest, exactly if fewer accounts than asked for have any; in all other cases it answers. (4) A defect: it recognises accounts by the size of the program's structure in the service's own memory; every account of that size on chain has no perp positions, so no pnl is ever stored for any market.", "quantifier": "all accounts and positions, stored states, markets, limits, both orders, all sorts of equal entries", "why_tests_cant": "the service has no tests; ranking must hold for all states and any unstable sort", "anchors": ["bin/service-mango-pnl/src/main.rs: compute_pnl, start_pnl_updater, unsettledPnlRanked", "programs/mango-v4/src/state/mango_account.rs: MangoAccount, space"]}
{"id": "C100", "title": "The health monitoring service's view is current again once the database works, with bounded memory", "statement": "(1) For every history of events and of database failures (an error where nothing was executed, an error where the transaction was executed nevertheless, snapshots dropped because too many wait): after an event at which nothing waits any more, the view of the latest rows shows for every account of the event exactly the value just computed, or a value stored less than a period ago, of the same kind (computed or not), with the same liquidation flag, on the same side of zero and, if it is positive, within a tenth of the new one (up to the precision of f64). (2) However long the database fails, no more snapshots wait than configured (or one). (3) A defect: of an account whose ratio is negative and stays so, no change is stored before the period is over, however large.", "quantifier": "all histories of events, all outcomes of all writes to the database, all periods, queue lengths and healths; every rounding with the laws of f64 rounding", "why_tests_cant": "tests exercise single snapshots; what the view shows after failures depends on the whole history", "anchors": ["bin/service-mango-health/src/processors/persister.rs: store_snapshot, persist_all_snapshots_and_update_state, should_insert", "bin/service-mango-health/src/processors/health.rs: compute_health"]}
{"id": "C101", "title": "What the client does to make room for a spot market works on chain exactly when it leaves the market's own tokens alone", "statement": "Placing an order in a spot market the account has no open orders account for, the client plans instructions that withdraw leftovers to free token positions, close an open orders account and create the new one. (1) For every reachable account, if there is a plan, the program executes it completely exactly if there are free positions for those of the market's tokens that have none, or one is missing and the plan withdraws neither of the market's own tokens. (2) Afterwards the market is open and both tokens have positions. (3) Nothing is withdrawn of which the account has more than one native unit, and no borrow; only open orders accounts that can be closed are closed. (4) A defect: with all positions in use, a free spot market slot before those in use makes the planning fail, although closing an open orders account would make room. Two missing tokens with too few free positions are never made room for: the plan lists the bank of a position that only exists in the client's copy of the account, or closes the position it needs.", "quantifier": "all reachable accounts, all markets of two distinct tokens, both sides, all contents of open orders accounts", "why_tests_cant": "a test has one account; whether a plan works depends on the order and content of all its positions", "anchors": ["lib/client/src/client.rs: serum3_create_or_replace_account_instruction, deactivate_first_active_unused_serum3_orders, find_existing_or_try_to_replace_token_position, deactivate_first_active_unused_token", "programs/mango-v4/src/instructions/token_withdraw.rs: token_withdraw", "programs/mango-v4/src/instructions/serum3_create_open_orders.rs: serum3_create_open_orders", "programs/mango-v4/src/health/account_retriever.rs: new_fixed_order_account_retriever"]}
{"id": "C102", "title": "Closing an account needs everything in it to be closed, can always be brought about, and leaves nothing behind in a perp market", "statement": "(1) On a production group an account with any history is closed exactly if its owner signed, it is not frozen, force_close is not asked for, it is not marked as being liquidated, and nothing is open in it: no token position, spot market account, perp position or conditional swap (the last are not looked at by the instruction, but each holds token positions open). (2) From every reachable account as many instructions as it has things open close all of them, after which closing succeeds: no combination of slots keeps an account open. (3) When an account is closed, it has no order on a perp market's book, none of its slots records one, none of its orders has an event waiting, its pending fills as a taker cancel out exactly in base and quote, and book, queue, market and all other accounts are unchanged.", "quantifier": "all accounts with any history of slot instructions, all markets, all owners, clocks and flags; all histories of a perp market and all accounts closed in it", "why_tests_cant": "a test closes an empty account; that nothing refers to a closed account, and that every account can be closed, are about all histories", "anchors": ["programs/mango-v4/src/instructions/account_close.rs: account_close", "programs/mango-v4/src/accounts_ix/account_close.rs: AccountClose", "programs/mango-v4/src/state/mango_account.rs: deactivate_token_position_and_log, deactivate_serum3_orders, deactivate_perp_position_and_log"]}
{"id": "C103", "title": "Only orders their owners placed rest on a perp market's book or trade, and only on their terms", "statement": "After every history of a perp market: (1) every order on the book was placed by its owner, in an instruction that succeeded, at the time the order carries; it is on the side, of the kind (fixed or pegged), with the client order id, the lifetime and the worst peg price that were asked for, is not larger, and at every oracle price the price at which it trades is one its owner accepts (the given price or better; for pegged orders the oracle price plus the given offset or better). Market and immediate-or-cancel orders never rest. (2) Every trade in the event queue has a taker who placed, at the trade's time, an order on that side that takes liquidity, and a maker who had placed, earlier in the history and at the time the trade names, an order on the other side that rests; the trade carries both client order ids, is not larger than either order, is at a price both accept at the oracle price of the taker's instruction and within the worst peg price of the maker, and happens before the maker's order expires.", "quantifier": "all histories of a perp market with any number of accounts, all orders and oracle prices", "why_tests_cant": "a test follows a few orders; that no other instruction \u2014 cancelling, resizing, closing, liquidation, a slot used again \u2014 brings an order or a trade nobody asked for is about all histories", "anchors": ["programs/mango-v4/src/instructions/perp_place_order.rs: perp_place_order", "programs/mango-v4/src/state/orderbook/book.rs: Orderbook::new_order", "programs/mango-v4/src/state/orderbook/order.rs: Order::price", "programs/mango-v4/src/state/orderbook/nodes.rs: LeafNode", "programs/mango-v4/src/state/orderbook/queue.rs: FillEvent"]}
{"id": "C104", "title": "Over its whole life an order never trades more than its size", "statement": "In every history of a perp market, for every order that comes to rest when it is placed: the lots it traded at once, the lots of all trades of the whole history in which it is the resting order (consumed or not, before or after cancelling), and the lots still resting are together at most the size asked for; its id is never given to another order that trades or rests. The trades waiting in the event queue are exactly the last trades ever made, in their order: none is lost, repeated or changed before it is consumed.", "quantifier": "all histories of a perp market with any number of accounts and fewer than 2^63 orders, all orders", "why_tests_cant": "a test places one order and fills it; that no later match, cancellation, slot reuse or consumption lets an order trade again is about all histories", "anchors": ["programs/mango-v4/src/state/orderbook/book.rs: Orderbook::new_order", "programs/mango-v4/src/state/orderbook/queue.rs: EventQueue", "programs/mango-v4/src/state/perp_market.rs: gen_order_id"]}
{"id": "C105", "title": "Expiry, order type and price limits of a perp order hold from the instruction to every trade", "statement": "For the four instructions placing perp orders: an expiry that is not in the future makes the instruction succeed without any effect, unless its price, peg limit or staleness argument is refused, in which case it fails. In every history of a perp market, every trade has a maker and a taker who made such instructions on opposite sides at the times the trade names: neither trades at or after its expiry (cut to 65535 seconds after placing), at a price worse than it gave (relative to the oracle price if pegged), or more than it asked for; the maker's was not a market or immediate-or-cancel order and its peg limit holds; the taker's was not post-only. Every order on the book comes from such an instruction, is pegged exactly if it was, and expires exactly then. One instruction makes trades of at most the base lots, quote lots and number asked for, none with the account itself unless that is allowed, and if reduce-only brings the position closer to zero.", "quantifier": "all histories of a perp market with any number of accounts and fewer than 2^63 instructions, all arguments", "why_tests_cant": "tests send single instructions; that no later slide, partial fill or matching loses an argument is about all histories", "anchors": ["programs/mango-v4/src/lib.rs: perp_place_order, perp_place_order_v2, perp_place_order_pegged, perp_place_order_pegged_v2", "programs/mango-v4/src/state/orderbook/order.rs: Order::tif_from_expiry", "programs/mango-v4/src/state/orderbook/order_type.rs: PlaceOrderType::to_post_order_type"]}
{"id": "C106", "title": "What confirming a transaction tells about it", "statement": "Waiting for a transaction returns a status only if a node answered with it at the wanted commitment; with a truthful node it is then in the chain for good with that result. It returns that the blockhash expired only after the first timeout, and then the transaction never gets into the chain unless it did between the last two queries. A timeout is returned only after it has passed, and the next turn after that returns. With a truthful node waiting ends when the transaction is confirmed or can no longer land. Sending and confirming succeeds exactly if some node took the transaction and waiting returned a status.", "quantifier": "all sequences of answers and times, all truthful nodes following one fork, all configurations", "why_tests_cant": "needs a node whose answers race with the chain; a test fixes one interleaving", "anchors": ["lib/client/src/confirm_transaction.rs: wait_for_transaction_confirmation", "lib/client/src/client.rs: Client::send_transaction, TransactionBuilder::send_and_confirm"]}
{"id": "C107", "title": "Errors surface exactly when the retries are used up", "statement": "A retry counter with n retries passes on every success, and passes on an error exactly if it is the last of n+1 in a row since the last success or the last error passed on. Retrying an expression evaluates it until it succeeds but at most n+1 times, returns the first success or else the last error, evaluates nothing afterwards and leaves the counter as new.", "quantifier": "all sequences of results, all numbers of retries", "why_tests_cant": "about all histories of a shared counter", "anchors": ["lib/services-mango-lib/src/retry_counter.rs: RetryCounter::fail_or_ignore, fail_or_retry!"]}
{"id": "C108", "title": "The liquidator's swap cost estimates are the last quotes, and swaps it finds plausible pay for the cost", "statement": "After any sequence of updates, failures and error expiries the estimate for a token is that of the last update of the token that was tried and got all answers. Up to rounding, an estimate's costs are the ratio between what the quoted routes take and what they give at oracle prices; and a conditional swap counts as plausible only if its taker, after swapping at the quoted rates, keeps at least the wanted profit.", "quantifier": "all histories of updates with any answers at any times, all quotes, prices and conditional swaps", "why_tests_cant": "the answers come from other services; tests mock one sequence", "anchors": ["bin/liquidator/src/token_swap_info.rs: TokenSwapInfoUpdater, TokenSwapInfo", "bin/liquidator/src/trigger_tcs.rs: Context::tcs_has_plausible_price"]}
{"id": "C109", "title": "Transactions the client sends do what was put together, with the stated compute limit and priority fee", "statement": "What is sent are the given instructions, unchanged and in order, after at most one compute price and one compute limit, each added only if the caller gave none; the added limit is the configured one per instruction of another program. A transaction gathered from prepared parts does all parts since the last clearing, and its limit is the sum of theirs. The averaging fee provider's fee is the exponentially weighted sum of the fees seen, never above the largest, and the fallback when nothing recent was seen.", "quantifier": "all instruction lists, configurations, sequences of gathering calls and histories of blocks", "why_tests_cant": "the combinations of given and configured values, and the histories, are unbounded; there are no tests", "anchors": ["lib/client/src/client.rs: TransactionBuilder::instructions_with_cu_budget", "lib/client/src/util.rs: PreparedInstructions", "lib/client/src/priority_fees.rs: CuPercentileEmaPriorityFeeProvider"]}
{"id": "C110", "title": "After sending transactions the client waits until its view of accounts includes them", "statement": "If refreshing accounts after transactions succeeds, then for each of the accounts the client has, on its best chain, data the node gave within the timeout as of a slot not before any of the transactions the node knows. Nothing but the node's answers is stored, waiting fails only when the node does and times out only past the timeout, and it ends once every account was answered for late enough.", "quantifier": "all accounts, statuses, timeouts and histories of answers of the node", "why_tests_cant": "the node's answers and their timing are unbounded; no tests", "anchors": ["lib/client/src/chain_data_fetcher.rs: refresh_account_via_rpc, transaction_max_slot, refresh_accounts_via_rpc_until_slot", "bin/liquidator/src/liquidate.rs: maybe_liquidate_account", "bin/liquidator/src/rebalance.rs: refresh_mango_account_after_tx"]}
