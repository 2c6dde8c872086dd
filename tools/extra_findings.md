15. While deposits of the sell token are reduce-only, no conditional swap selling it can be triggered: the check for further trades
    negates `I80F48::MIN` (`C54_reduce_only_stuck`).
16. In token liquidation the debt is limited by the asset balance at a price rounded down, the payment is not: for a liab token of very low
    price per native unit the liqee pays more than it holds and ends with a new debt in the asset token (`C56_payment_can_exceed_balance`;
    bounded by 2^-48 native quote per native unit of debt, `C56_amounts`).
17. Updating the health cache after a deposit or withdrawal scales the asset weight at the lower of oracle and stable price
    (health/cache.rs:858), building it at the higher one (1325): with weights scaled by deposits the init health check at the end of an
    instruction is more lenient than the same check at the start of the next one (`C57_post_check_more_lenient`, `C57_init_at_least`).
18. `serum3_liq_force_cancel_orders` builds the health cache before it charges loan origination fees and never subtracts them: an
    account can leave liquidation although its liquidation-end health is negative (`forceCancel_misses_fee`).
19. With several banks for one token, funds of one open orders account can be placed through one bank and settled through another; the
    potential-token counter of the first stays too high and uses up its deposit limit for good (`C60_two_banks_drift`).
20. `HealthCache::assets_and_liabs` indexes the account's token list with the settle token's index (health/cache.rs:775): perp positions are
    valued at the price of whatever token comes first in the account, so whether collateral fees are charged depends on the order in
    which the account opened its tokens (`C62_wrong_settle_price`), and for settle tokens with a large index it aborts.
21. Perp liquidation with `init_overall_asset_weight > 1 - positive_pnl_liquidation_fee` (for instance weight 1 and fee 5%): the third sizing
    step counts a lot's gain at `1 - fee` expecting a settlement the fourth step then skips. A liqor that passes a large `max_pnl_transfer`
    reduces more base than needed, by up to `weight / (1 - fee)` of the deficit (`C63_overliquidation`; else `C63_not_more_than_needed`).
22. token_deposit.rs:139 "depositing can only increase health" is false: with a token reserved in two spot markets, a deposit can lower health
    (`C64_deposit_can_lower_health`: maintenance health from +10 to -30). Anyone can deposit into an existing position, so a third party can
    make such an account liquidatable. Otherwise health does not fall (`C64_deposit_health`).
23. token_force_close_borrows_with_token.rs:69-75 compares only init liability weights: closing borrows by force can make a healthy
    account liquidatable (`C65_maint_health_can_fall`: maintenance health from +1 to below -12), and it lowers even init-weighted health
    if the token also lies free in an open orders account (`C65_health_can_fall`). The new borrow of the other token is made without
    net borrow or utilisation check.
24. `Bank::from_existing_bank` (state/bank.rs:380) sets `fallback_oracle: existing_bank.oracle`: a bank added to a token has another
    fallback oracle than its siblings and the mint info (`C66_fallback_differs`).
25. `Bank::verify` checks the order of maintenance and initial weights, and the zero weight of tokens excluded from liquidation, only for
    the stored weights. A weight shift can take the maintenance asset weight below the initial one (then accounts can be liquidated right
    after borrowing, and the security admin cannot abort the shift because `verify` fails, `C66_shift_order`), and can give a token that
    nobody can liquidate a positive weight (`C66_shift_unliquidatable`).
26. `require_gte!` accepts NaN, so `verify` does too (`C66_nan`); token_edit accepts a net borrow window of zero seconds and leaves
    `force_close` on when a token stops being reduce-only (`C66_unchecked`); perp_edit_market checks only that the initial base asset weight
    is not negative (`C66_perp_unchecked`).
27. **Forced closing of perp positions ignores fills that are not processed yet** (`C69_flat_becomes_short`): a flat account (10 long, 10
    just sold with the fill pending) is turned 10 short, in a market where it could not have opened that position itself.
28. **Maximum borrow fails for tokens with a low native price** (`C70_low_price_fails`): the upper end of the search in
    `max_borrow_for_health_fn` is health divided by the liability weight but not by the price; the ratio there is still above the wanted one
    and the search returns an error.
29. **Maximum borrows and swaps leave out the loan fee** (`C70_borrow_fee_left_out`): after borrowing the computed maximum the ratio is
    below the wanted one, by up to the fee rate.
30. **The net borrow limit for swaps uses another price than the program** (`C70_swap_limit_exceeded`): `apply_limits_to_swap` divides by
    the oracle price, `check_net_borrows` multiplies by the larger of oracle and stable price, so the amount can be refused.
31. **Freezing leaves gaps** (`C71_frozen_still`): `perp_cancel_all_orders` and `perp_cancel_order_by_client_order_id` lack the check;
    in `account_buyback_fees_with_mngo` the check for the receiving account asks the paying account
    (accounts_ix/account_buyback_fees_with_mngo.rs:25).
32. **A temporary delegate cannot be named or removed alone** (`C71_temporary_alone`): account_edit.rs:18-21 asks for a name or a delegate.
33. **Settling can lower the payer's health while fills are pending** (`pending_settlement_lowers_health`): the loss that `perp_settle_pnl` settles
   leaves out fills waiting in the event queue, health counts them; an account that has closed its position at a profit can be made to pay its
   old loss in full while the perp position's gain counts only with the overall asset weight.
34. **The insurance fund and other traders also pay for accounts that could pay** (`C73_solvent_paid`): perp bankruptcy starts when no more can be settled, judged by what maintenance
   health lets settle and by the settle limit of the window. An account with assets of 47 and a perp loss of 40 gets up to the amount by which its maintenance health is negative covered; with the settle
   limit of the window used up (`exUsed_history`: settle part of an open loss, then close) up to the amount by which its init-weighted health is negative, although in the next window it would pay itself.
35. **Cancelling with limit 0 panics** (`C74_limit_zero`): `cancel_all_orders` with limit 0 counts the limit down below zero at the first
    matching order and fails; without an order it succeeds.
36. **`matched_quantity` returns at most, not at least** (`C76_matched_quantity`, case in Props/DepthEx): its comment promises the quantity
    "to match at least the requested amount" and speaks of rounding up, but it rounds up what it takes away, so the result is the largest
    quantity that costs at most the amount. Bids 5 @ 100 and 5 @ 40: for 530 it says 5, which bring in 500. Nothing in the repository calls it.
37. **The fills service panics at the ring's ends** (`C77_crash`): fill_event_filter.rs indexes `events[head - 1]` for the head's sequence number; in a new market, and whenever a multiple of
    488 events has been consumed in either of the two versions compared, head is 0 and the index underflows.
38. **Head updates are wrong while the queue is full** (`C77_full_queue_head`): the event before the head is then the newest, not the last consumed one.
39. **Oracle moves do not reach the asks of the order book feed** (`C78_asks_stale`): both sides share the last-seen version of the oracle account and bids come first, so asks pegged to the
    oracle keep their old prices until the asks account itself changes.
40. **Updates of orders are sent only if orders both came and went** (`C78_orders_missing`): orderbook_filter.rs tests `!additions.is_empty() && !removals.is_empty()`; a subscriber of orders
    misses every pure placement and every pure cancellation. Orders with equal price, size and owner are not told apart either.
41. The client library leaves fallback oracles out of the account list that are another position's oracle, and the program looks for fallbacks only
   behind the open orders accounts: the fallback is not used although its account is passed (`C80_fallback_is_oracle`). When scanning, the same happens to
   quote feeds of pool fallbacks (`C80_quote_is_oracle`).
42. The library's map of fallbacks is by oracle: of two tokens with the same oracle and different fallbacks only one fallback is passed
   (`C80_shared_oracle`); for a token whose own oracle is a pool the quote feed is not passed (`C80_pool_oracle`).
43. Liquidator: candidates for conditional swaps are listed together with their volume (tcs_state.rs:46-53, main.rs:610); a swap found again while being executed, after its possible volume changed,
   is handed to a second worker at the same time (`C84_same_swap_twice`).
44. Liquidator: an account update that arrives while a scan runs, after the account was checked, is forgotten: the end of the scan clears the marker for new events (liquidation_state.rs:226-229), and no
   scan starts until another update arrives (`C84_update_during_scan`).
45. Client: `CachedAccountFetcher::fetch_multiple_accounts` returns only the accounts that were not cached (account_fetcher.rs:336-338 returns the answer for `missing_keys`), in sorted order
   (`C85_many_drops_cached`). `derive_fallback_oracle_keys` with the dynamic configuration (context.rs:685-687) uses it: a stale oracle that is already cached is not seen, so its fallback is not passed.
46. Client: `clear_cache` leaves running requests registered; a call after it joins them, or finds their answer cached, and gets data from before the clearing (`C85_stale_after_clear`).
47. Client: `fetch_top` for losses can return accounts from which nothing can be settled, as the filter on the sign is made before the health limit is applied (`C86_returns_nothing_to_settle`). The liquidator's
   rebalancer takes the first one (bin/liquidator/src/rebalance.rs:984-1009): if no loser can settle anything, the transaction fails (perp_settle_pnl.rs:125) and the error ends the rebalancing,
   although a comment says that a missing counterparty must not.
48. Settler: the loop over the accounts ends at the first that cannot be settled (settle.rs:251-256), also if later ones could. An account with the flat fee whose gain is exactly the threshold (the loop asks for more,
   the program pays the fee from the threshold on, perp_market.rs:464) stops all accounts with the same or a lower fee in this market (`C87_blocked_at_threshold`); accounts in bad health with a lower fee are not settled if an
   account with the flat fee only misses a large enough counterparty (`C87_blocked_low_health`).
49. Settler: whether an instruction fits in a transaction is only checked if nothing is collected (settle.rs:342); a too large one after others is sent alone, and fails (`C87_oversized_sent`). Failures to send are only logged,
   but the accounts stay marked as recently settled.
50. Liquidator: forbidden tokens are removed from the token list before it is paired with the (complete) list of balances (liquidate.rs:393-404), so that the balances of all tokens after a held forbidden token are those of
   other tokens: the bot gives up on accounts it could liquidate, or sends instructions that fail (`C89_forbidden_shift`).
51. Liquidator: the restrictions on perp markets are not observed when taking over losses (liquidate.rs:283-300, `C89_forbidden_perp`), the list of allowed tokens not for bankruptcies (548-566).
52. Liquidator: "the highest-value perp base position" is the one with the largest number of lots times the price, without the lot size (liquidate.rs:170-176, `C89_lot_sizes`).
53. Liquidator: if not even one cancellation fits into the configured compute limit or a transaction, an empty transaction is sent and reported as success (liquidate.rs:92-111; `C89_possible` assumes that one fits).
54. Liquidator: `tcs_is_interesting` passes the bought token twice to the check of the configuration's token lists (trigger_tcs.rs:444): swaps selling forbidden tokens are triggered, and swaps are left alone if only
   the sold token is on the list of allowed ones (`C90_sold_token_ignored`, `C90_forbidden_sold`).
55. Liquidator: the remaining borrow room is divided by the oracle price while the program measures at the higher of oracle and stable price (trigger_tcs.rs:564-568, bank.rs:938), and `remaining_net_borrows_quote`
   returns an unlimited amount when net borrows in the window are negative (bank.rs:934), although the next borrow is then measured against the limit: executions sized by it fail
   (`C90_stable_price_ignored`, `C90_negative_net_borrows`).
56. Liquidator: expired conditional swaps only need to be closed, but they are left out while borrow or deposit limits leave less than a dollar of room (trigger_tcs.rs:634-657, `C90_expired_waits`).
57. `Bank::verify` does not require asset weights to be at most 1 nor liability weights to be at least 1 (nor do perp_create_market and perp_edit_market): with an asset weight above 1, accounts that owe more than they own can be healthy (C92_weights_not_checked). Only the admin sets weights.
58. `compute_equity` leaves perp positions out (a TODO in the code): the reported equity of an account can be below its maintenance health (exData) or far above what it is worth.
59. **A quote of nothing for nothing passes every price limit** (trigger_tcs.rs:173-177, 200): 0 / 0 is NaN and no comparison holds for it, so it is returned as an acceptable quote (`C93_nan`); an answer of something for nothing is infinity, which `unchecked_quote` reports as an unreachable case.
60. **The rebalancer can never close an open orders account** (rebalance.rs:772-776): it sends the close instruction before the settle instruction in one transaction, and settling needs the open orders account that was just removed (`C94_close_then_settle`). The error also aborts `rebalance_tokens`, so no token is rebalanced while the bot has an open orders account without reserved funds (`C94_blocked`).
61. **A transaction that failed counts as confirmed** (client.rs:2568-2581, confirm_transaction.rs): `send_and_confirm` returns Ok for a transaction that landed, without looking at its error; callers like the rebalancer go on as if it had succeeded.
62. **A route that cannot be prepared drops all others** (rebalance.rs:423-451): `determine_best_swap_tx` returns the first error, although a later route may fit (`C94_route_dropped`).
63. **The keeper looks at ten events, the program consumes at most eight** (crank.rs:265, perp_consume_events.rs:52): the accounts of the last two are passed in vain, and the number of events that is logged as consumed is the number seen.
64. **An empty transaction before instructions that do not fit** (crank.rs:580-594): if the first account's instructions exceed a limit alone, the empty previous batch is sent, and then the instructions anyway (`C95_empty_transaction`).
65. **A swap whose check fails is started anyway** (bin/settler/src/tcs_start.rs:83-92): the error is recorded, but the loop does not `continue`, so the swap is put into a transaction with up to seven others (`C96_error_kept`); if it fails there, none of them is started and every owner's account is charged with an error.
66. **One swap without room stops its group** (tcs_start.rs:106-108): the first swap whose token has no position, when all positions are taken, ends the transaction for all that follow, even those whose token has one (`C96_pick`); if it is the first and nothing else is withdrawn, a transaction without instructions is sent.
67. **The crank service panics at its first update** (bin/service-mango-crank/src/mango_v4_perp_crank_sink.rs:33,77-80; openbook_crank_sink.rs:85-88): main.rs passes pairs of market and queue, which become a map keyed by market, but the sinks ask it for the queue; every update that is not throttled panics and no instruction is ever sent (`C97_panics`; `C97_flipped` is the repair).
68. **A missing spot market shifts all later pairs** (service-mango-crank/src/main.rs:98-122): missing accounts are filtered out before the positions are used to pair markets with queues (`C97_pairs_shifted`).
69. **The pnl service never stores any pnl** (bin/service-mango-pnl/src/main.rs:119-124): it compares the length of the account data with `size_of::<MangoAccount>()`, 616 bytes in the service's memory; on chain only an account with one perp order slot and no positions at all has that length (`C99_nothing`).
70. **The pnl service panics instead of answering** (main.rs:226-236): the entry of each listed account is unwrapped, but accounts without pnl in the market are in the list, and first in ascending order (`C99_panics`); the panic happens while the lock is held for writing, so that every later request and update panics too (read).
71. **Changes of a negative health ratio are not stored** (bin/service-mango-health/src/processors/persister.rs:368): the size of a change is divided by the previous ratio with its sign, so that of an account with a negative ratio no change is ever a big one (`C100_negative`): the accounts of most interest are updated only once per period.
72. **Making room for a spot market can close the position it needs** (lib/client/src/client.rs:1087-1131): the first position that is not in use and holds at most one native unit is withdrawn and closed, also if it is that of the market's own base or quote token; creating the open orders account then fails (`exB`, `C101_iff`). With both tokens missing and fewer than two free positions the transaction always fails: the second withdrawal is planned with a position that exists only in the client's copy, whose bank is listed for the health check (account_retriever.rs:110-111).
73. **Free spot market slots are inspected when looking for one to close** (client.rs:1012-1016): a free slot's `open_orders` is the default key (its data is too short: a panic) or that of the account that was closed there (not found), so if it comes before the slots in use, the order is not placed although room could be made (`C101_inactive`); if nothing can be closed the client panics (1031-1032).
74. **The peg limit of a pegged order does not bind it when it takes.** The limit is stored in the resting order and checked when it is matched, but `new_order` compares opposing prices only with oracle price plus offset (book.rs:97): a pegged bid with offset +10 and peg limit 105 buys at 108 when the oracle price is 100, although it would count as invalid on the book. Lib.rs:1162 documents the limit as the price at which the order expires; one already beyond it still trades. A pegged instruction with an order type that cannot be pegged is also skipped with success, rather than refused, if its expiry has passed (example in Props/Entry).
75. **Transactions that fail on chain are reported as sent successfully** (lib/client/src/client.rs:2572-2580): `wait_for_transaction_confirmation` returns the status with the transaction's error (as its documentation says), but `send_and_confirm` drops it and returns the signature. Only the simulation before sending catches errors; a transaction whose outcome changes between simulation and execution counts as done for all users of the client (liquidator, keeper, settler; example in Props/Confirm).
76. **A transaction can be reported as expired although it landed** (confirm_transaction.rs:81-105): the signature status is asked first and the blockhash's validity afterwards, without asking for the status again, so one landing in one of the last usable blocks between the queries is reported as `BlockhashExpired`; a caller that sends again executes it twice (example in Props/Confirm). Without a timeout waiting does not end either, contrary to the documentation of `timeout`, if the node keeps reporting a status below the wanted commitment.
77. **The liquidator's swap cost estimates never expire** (bin/liquidator/src/token_swap_info.rs): `last_update` is stored but read nowhere, so while quotes fail (or the token is skipped after too many errors) conditional swaps go on being judged by the last quote, however old, relative to an oracle price of that time. Successful updates do not clear the errors before them either: single failures between successes add up until the token is skipped.
78. **The taker test bot deposits too much** (bin/keeper/src/taker.rs:84-107): `ensure_deposit` computes the missing amount, logs it, and deposits the whole desired balance.
79. **The averaged priority fee starts at zero** (lib/client/src/priority_fees.rs:49-110): from the first block on the provider no longer gives the configured fallback but `α` times the block's fee (a fifth, by default), and `1-(1-α)^n` of a steady fee after `n` blocks (C109_start); after a pause of the feed the old average is used again with the first new block. Two more small things there: a lagging receiver makes the job panic (the bot then exits), and the compute limit configured per instruction never applies to instructions prepared with their own units (C109_prepared).
80. **Transactions a node does not know yet are not waited for** (lib/client/src/chain_data_fetcher.rs:166-173): `transaction_max_slot` counts an unknown signature as slot 0, so refreshing "until that slot" ends with the first answers, possibly from before the transaction (C110_unknown). The callers confirm transactions first, but the query may reach another node behind the same address.
* (read) the loops of the health service receive with `Ok(msg) = data.recv()` in a `select!` whose only other arm breaks (health.rs:78-114): a single lag of the channel (8192 messages, e.g. during a slow recomputation) ends the job.
* (read) A HealthCheck of a ratio with a negative minimum guarantees nothing about the ratio with all banks passed: funds that come back with a skipped
  market can lower the liabilities more than the shortfall. A ratio check with minimum 0 passes with a tiny negative health, the quotient is truncated.
* (read) The fills service stores checkpoints under the queue's key and looks them up under the market's, so subscribers never get one; publishing of spot fills is commented out.
* (read) The order book service removes only level subscriptions on unsubscribe; a client that subscribes before the first checkpoint never gets a full book.
* (read) `price_lots_to_ui_perp` (mango-feeds-lib) panics for markets whose base token has fewer decimals than the quote token (`checked_sub(..).unwrap()`).
* (read) A linear auction can be created with start time 0 and then never executes until it expires; conditional swaps whose taker
  fee rate exceeds 100% or whose price including fees exceeds 2^79 or rounds to 0 panic on trigger.
* (read) `Bank::verify` does not compare the maintenance asset weight with the maintenance liability weight, nor the targets of a
  maintenance weight shift with the init weights; the ordering of the three healths (C37) relies on both (see `C55_ordered`).
* (read) `token_liq_bankruptcy` does not look at the liqee's health: it relies on the phase conditions (`require_after_phase2`), under
  which token assets below one native unit do not count.
* (read) The inverse of a bid price is kept as f64 and converted to a 48-bit fraction for health: bids above 2^49 quote units per base
  unit become 0, which means "no price remembered".
* (read) `serum3_register_market` does not require base and quote token to differ; C61 and C59 assume it.
* (read) Perp liquidation: if one lot's gain (base weight against fees) is not positive, the instruction panics and the position cannot be
  liquidated; the limit of the third step compares pnl with settle tokens; the first step counts the part above zero unweighted, so
  a second call can be needed; the cache is adjusted by the nominal token transfer, not by what the indexed positions change.
* (read) `perp_settle_fees` does not refresh the settle limit's window (`update_settle_limit`), `perp_settle_pnl` does.
* (read) HealthRegionBegin and HealthRegionEnd need no signature of the account's owner: anyone can put an account in a region for one transaction. By C79 that does no harm.
* (read) Delisting is limited to testing groups, but `group_edit` lets the admin switch testing mode on at any time; then a delisted token's index can be
  reused for another mint while spot markets and account positions still refer to it (C82 states what holds without that).
* (read) The client library's own health cache (lib/client/src/health_cache.rs:42-56, 76-90) sets `begin_fallback_oracles` to the number of accounts, so it never uses fallback oracles, although their
  accounts are appended.
