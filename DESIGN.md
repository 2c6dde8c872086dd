# Formal model of mango-v4 in Lean 4

The model covers the on-chain program in `/repo/programs/mango-v4/src`. It consists of functions that follow the code
function by function, a layer of state machines that run them in every order, and theorems about all runs.
This file: trusted base, what is and is not modelled, conventions, findings, and per property the plan and its state.

## Trusted base

* Lean 4.33.0's kernel, and the standard axioms `propext`, `Classical.choice`, `Quot.sound` (at most these three; some
  theorems use fewer). No axioms of our own, no compiled-code decision procedures. Concrete examples are checked by the
  kernel (`decide +kernel`, which lets the kernel evaluate; it does not use compiled code).
* The fidelity of the model to the source. Every definition cites the file and lines it models and says where it
  simplifies. The code is not run here.
* The semantics of the `fixed` crate (blockworks fork, v1.11.0) for `I80F48`, which is not in the sandbox: 128-bit two's
  complement bits with 48 fractional bits; `+ - * /` panic on overflow (the release profile has
  `overflow-checks = true`), `*` rounds toward minus infinity (as asserted by the repo's own test in `i80f48.rs`), `/`
  truncates toward zero.
* A panic or an error aborts the Solana transaction and rolls back all effects. So each operation is a function into
  `Res α = Except Err α`, and properties speak about successful results (or about which error, where that matters).

## Conventions

* `I80F48` is `Int` (the bit pattern), every operation checked against the i128 range. Scale `S = 2^48`.
* `i64/u64/u128` are `Int`/`Nat` with explicit range checks (`ck64`, `cku64`) where the code's checks or overflow matter,
  and with explicit wrap-around where the code wraps.
* Floats are never computed in `Float`. Display-only float fields are omitted. A float that influences the outcome is one of:
  a parameter (oracle-derived prices), its I80F48 conversion (fee rates, ratios), an arbitrary function with the one
  property used (settle limit: non-negative; health f64 division: monotone), or, for the stable price, an exact rational
  operation followed by an arbitrary monotone rounding with bounded relative error. Such roundings are written `rnd`; the
  assumptions on them (`Swap.IsFloat`, `Stable.IsRnd`) are proved for round-to-nearest-even with 53 significant bits
  (`Float64.isRnd_f64`, relative error 2^-53; exponents unlimited, so overflow and subnormal numbers are left out unless a
  model treats infinity and NaN apart).
* Loops of the code are recursion on the list or on fuel that is proved sufficient or whose exhaustion is a panic.
* Properties are stated in `Verif/Props/*`, each file with a small specification section that does not use the model's
  helpers; models are in the other directories. Each Props file has an example (or an `Ex` file) showing that the hypotheses
  of its theorems are met by a concrete non-trivial case.

## Module map

| Directory | Models | Files of /repo |
|---|---|---|
| Basic, Fixed, ListSum | results, fixed point, sums | i80f48.rs, the `fixed` crate |
| Bank/ | banks: deposit, withdraw, fees, dust, interest, limits, weights; a token as a state machine over all its banks and positions | state/bank.rs, token_register, token_add_bank, token_edit, token_update_index_and_rate, token_liq_bankruptcy (socialization), admin_token_withdraw_fees |
| Book/ | order keys, critbit tree in an arena with free list, book side iteration, event queue | state/orderbook/*.rs |
| Perp/ | matching, order posting, event consumption, perp positions, funding, settle limits, settlement, bankruptcy; a market as a state machine over accounts, book and queue | state/orderbook/book.rs, state/perp_market.rs, mango_account.rs, mango_account_components.rs, perp_* instructions |
| Health/ | the health cache and its construction | health/cache.rs |
| Account/ | health checks and the liquidation flag; the account's bytes and resizing; the account's slots | mango_account.rs, account_* instructions |
| Oracle/ | price reading, fallback, staleness, account lookup | state/oracle.rs, health/account_retriever.rs |
| Flash/ | flash loans, and transactions as lists of instructions of mango and other programs | flash_loan.rs |
| Misc/ | instruction gate, fee buyback, 30-bit division, stable price | group.rs, ix_gate_set, account_buyback_fees_with_mngo, i80f48.rs, stable_price.rs |
| Tcs/ | token conditional swaps: prices, amounts, trigger, start, create | state/token_conditional_swap.rs, token_conditional_swap_* instructions |
| Health/Formula, Health/FromState | the health formula as plain arithmetic (specification); where health inputs come from: banks (with scaled weights), perp markets, positions | health/cache.rs:108-115, 463-496, 1238-1430; state/bank.rs:1227-1265 |
| Liq/Phases, Liq/Bankruptcy | liquidation phases on the health cache; token bankruptcy | health/cache.rs:851-868, 923-1048; instructions/token_liq_bankruptcy.rs |
| Liq/Token | token liquidation | instructions/token_liq_with_token.rs |
| Health/Update | in-place updates of the health cache | health/cache.rs:851-918 |
| Serum/Model | spot orders: placing, settling, loan fees, remembered prices, force cancelling; the exchange is an environment | instructions/serum3_place_order.rs, serum3_settle_funds.rs, serum3_liq_force_cancel_orders.rs |
| Misc/Collateral | collateral fees | instructions/token_charge_collateral_fees.rs, health/cache.rs:757-798 |
| Liq/PerpBase | perp base and positive pnl liquidation | instructions/perp_liq_base_or_positive_pnl.rs |
| Wallet/Model | deposits, withdrawals, forced withdrawals | instructions/token_deposit.rs, token_withdraw.rs, token_force_withdraw.rs |
| Liq/ForceClose | closing borrows by force | instructions/token_force_close_borrows_with_token.rs |
| Config/Model, Spec, Steps | configuration of tokens, perp and spot markets | instructions/token_register.rs, token_register_trustless.rs, token_edit.rs, token_add_bank.rs, perp_edit_market.rs, serum3_edit_market.rs, state/bank.rs (from_existing_bank, verify) |
| Perp/OrderIx | perp orders as whole instructions | instructions/perp_place_order.rs |
| Client/Search, Model, SearchLemmas | maximum amounts of the client library | health/client.rs:13-492 and its search functions |
| Auth/Model | rights to accounts | state/mango_account.rs:315-375, instructions/account_edit.rs, account_toggle_freeze.rs, sequence_check.rs, account_close.rs, the checks in accounts_ix/*.rs |
| Settle/Model, Lookup | settling pnl and fees as instructions | instructions/perp_settle_pnl.rs, perp_settle_fees.rs, admin_perp_withdraw_fees.rs |
| Liq/PerpNegative | negative perp pnl and perp bankruptcy | instructions/perp_liq_negative_pnl_or_bankruptcy.rs |
| Perp/CancelIx | cancelling by force | instructions/perp_liq_force_cancel_orders.rs |
| Feeds/Fills | the fills feed | bin/service-mango-fills/src/fill_event_filter.rs |
| Feeds/Book | the order book feed | bin/service-mango-orderbook/src/orderbook_filter.rs, main.rs |
| Region/Model | health regions in transactions | instructions/health_region.rs, accounts_ix/health_region.rs |
| Client/Accounts | health accounts of the client library | lib/client/src/context.rs:28-112, 194-218, 420-600, 657-751 |
| Health/CheckIx | the HealthCheck instruction | instructions/health_check.rs |
| Config/Registry | listing and delisting of tokens and markets | accounts_ix and instructions of token_register, token_register_trustless, token_add_bank, token_deregister, perp_create_market, perp_close_market, serum3_register_market, serum3_deregister_market |
| Liq/Insurance | the insurance fund | instructions and accounts_ix of group_create, group_change_insurance_fund, group_withdraw_insurance_fund, group_close; transfers of token_liq_bankruptcy.rs, perp_liq_negative_pnl_or_bankruptcy.rs |
| Bots/Workers | workers and scans of the liquidator | bin/liquidator/src/tx_sender.rs, liquidation_state.rs:183-234, tcs_state.rs:46-63, main.rs:352-380, 607-616 |
| Client/Fetcher | caching account fetcher | lib/client/src/account_fetcher.rs:129-345 |
| Client/PerpPnl | search for settlement partners | lib/client/src/perp_pnl.rs:10-119 |
| Bots/Settler | settler: pairing and batches | bin/settler/src/settle.rs:146-150, 203-361 |
| Bots/Errors | error tracking of the bots | lib/client/src/error_tracking.rs:7-161 |
| Bots/Liquidate | liquidator: what to do next | bin/liquidator/src/liquidate.rs:19-34, 47-138, 140-193, 279-300, 339-357, 386-505, 537-566, 591-726, health/client.rs:14-20, health/cache.rs:934-1043 |
| Bots/Trigger | liquidator: conditional swaps, selection and size | bin/liquidator/src/trigger_tcs.rs:36-83, 379-663, 740-984 |
| Bots/TriggerRun | liquidator: the run over conditional swaps | bin/liquidator/src/trigger_tcs.rs:987-1119, 1145-1181 |
| Health/Equity | equity, ComputeAccountData, f64 division | state/equity.rs; instructions/compute_account_data.rs; i80f48.rs:130-132 |
| Bots/QuoteCache | liquidator: cache of swap quotes | bin/liquidator/src/trigger_tcs.rs:83-326 |

| Props/Float64 | round-to-nearest-even with 53 bits meets the assumptions made on roundings | IEEE 754 |
| Bots/Rebalance | liquidator: rebalancer | bin/liquidator/src/rebalance.rs:374-1040 |
| Bots/Keeper | keeper | bin/keeper/src/crank.rs:83-170, 240-335, 495-608 |
| Bots/TcsStart | settler: starting swaps | bin/settler/src/tcs_start.rs:58-142, 193-240 |
| Bots/Crank | crank service | bin/service-mango-crank/src/{mango_v4_perp_crank_sink.rs:27-107, openbook_crank_sink.rs:27-98, main.rs:83-122} |
| Misc/Allocator | the heap | allocator.rs |
| Bots/Pnl | pnl service | bin/service-mango-pnl/src/main.rs:50-239 |
| Bots/Persist | health monitoring service | bin/service-mango-health/src/processors/{persister.rs, health.rs} |
| Client/SlotPlan | making room for a spot market | lib/client/src/client.rs:934-1131 |
| Account/Close | closing an account | programs/mango-v4/src/instructions/account_close.rs, accounts_ix/account_close.rs |
| Perp/Entry | entry points placing perp orders | lib.rs:1019-1290, order.rs:50-64, order_type.rs:18-55 |
| Client/Confirm | sending, confirming, retrying | lib/client/src/confirm_transaction.rs:63-113, client.rs:239-266, 2567-2581; lib/services-mango-lib/src/retry_counter.rs |
| Bots/SwapInfo | liquidator's swap cost estimates | bin/liquidator/src/token_swap_info.rs |
| Client/Budget | compute budget, prepared instructions, priority fee | lib/client/src/client.rs, util.rs, priority_fees.rs |
| Client/Refresh | refreshing accounts after transactions | lib/client/src/chain_data_fetcher.rs |

## Not modelled

* Anchor account validation (owner, discriminator, seeds) except where a property is about it (C45, C46, C52); token and
  OpenBook program internals; sysvars; logging and events; CPI plumbing.
* Rust `RefCell` borrow failures and compute limits.
* The client side (`lib/`, `bin/`, `ts/`) except for C70, C77, C78, C80 and C84 to C91, C93 to C97, C99 to C101, C106 to C110.
* Testing-only behaviour (testing groups skip event consumption failures), legacy initialisation of the curve scaling.
* Specific simplifications, also stated at the definitions: order tree timestamps as Nat without u64 overflow; book iteration is
  eager; health values enter settlement and the liquidation state machine as parameters; the health region is one operation in C36 (transactions in C79);
  buyback histories have a fixed interval, non-decreasing times and no u64 saturation; oracle account bytes are abstracted to
  `Source`; account bytes are a function `Nat → UInt8` with a length, rent transfers omitted; slots carry one opaque payload;
  in flash loans SPL delegates are omitted, health pre/post checks are functions of the environment, and other programs are lists
  of token account changes and calls into mango, subject to the runtime's rules.

## Findings about the code

Each is a theorem with a concrete witness unless marked (read), in which case it comes from reading the code while modelling.

1. Flash loan End accepts a bank listed twice in its health accounts; the second entry books the loan again as a borrow
   that the closing of the emptied position then erases. The bank keeps a recorded borrow nobody owes
   (`C45_duplicate_bank_erases_debt`).
2. Token bankruptcy with several banks: the `break` (token_liq_bankruptcy.rs 268-270) leaves later banks with the old deposit
   index (`C12_break_leaves_bank_behind`).
3. Token bankruptcy: the new deposit index can become zero or negative if the loss exceeds deposits
   (`C12_index_can_become_negative`).
4. `bank.verify` accepts `util0 = 0`, with which the index update at zero utilization divides by zero
   (`C10_zero_kink_aborts`).
5. Health ordering (init ≤ liquidation end ≤ maintenance) fails when two spot markets with reserved funds share a token with
   different asset and liability weights (`C37_can_fail_with_shared_token`); then an account can leave liquidation with negative
   liquidation-end health (`C35_recovers_with_negative_liq_end_health`).
6. The claim in the code's documentation that health with skipped banks is "guaranteed to be less" fails in the same
   situation (`C40_can_exceed_with_shared_token`).
7. Sell orders with a binding quote limit trade past a better-priced order (`C19_sell_can_skip`) and can be posted crossing
   (`C20_sell_can_cross`).
8. `perp_force_close_position` records a trade without settling funding first; unsettled funding is lost
   (`C25_force_close_loses_funding`).
9. An account can block the event queue by deactivating a perp position with pending taker fills that cancel out
   (`C48_deactivate_blocks_queue`), or by shrinking its open-order section below a slot with a pending event
   (`C48_shrink_blocks_queue`).
10. `perp_create_market` accepts market index 65535, the marker of a free slot (`C32_market_65535_takes_free_slot`).
11. Socializing a perp loss with zero open interest charges nobody (`C31_nobody_pays`).
12. Stable price: the delay price understates the average after gaps of more than ten minutes
    (`C43_delay_understated_after_gaps`); zero stable and oracle price abort (`C43_zero_price_aborts`).
13. Oracles: a zero price with zero deviation is accepted (`C44_zero_price_accepted`); pool prices are checked against the
    deviation of the quote feed, not scaled to the pool price (`C44_pool_deviation_unscaled`); an unreadable primary blocks
    the fallback (`C44_unreadable_primary_blocks_fallback`); stub oracles pass every check, even with a negative price
    (`C44_stub_always_passes`).
14. 30-bit division aborts on the smallest representable operand (`C42_smallest_aborts`).
15. While deposits of the sell token are reduce-only, no conditional swap selling it can be triggered: the check for further trades
    negates `I80F48::MIN` (`C54_reduce_only_stuck`).
16. In token liquidation the debt is limited by the asset balance at a price rounded down, the payment is not: for a liab token of very low
    price per native unit the liqee pays more than it holds and ends with a new debt in the asset token (`C56_payment_can_exceed_balance`;
    bounded by 2^-48 native quote per native unit of debt, `C56_amounts`).
17. Updating the health cache after a deposit or withdrawal scales the asset weight at the lower of oracle and stable price
    (health/cache.rs:858), building it at the higher one (1325): with weights scaled by deposits the init health check at the end of an
    instruction is more lenient than the same check at the start of the next one (`C57_post_check_more_lenient`, `C57_init_at_least`).
18. `serum3_liq_force_cancel_orders` builds the health cache before it charges loan origination fees and never subtracts them: an
    account can leave liquidation although its liquidation-end health is negative (`forceCancel_misses_fee`).
19. With several banks for one token, funds of one open orders account can be placed through one bank and settled through another; the
    potential-token counter of the first stays too high and uses up its deposit limit for good (`C60_two_banks_drift`).
20. `HealthCache::assets_and_liabs` indexes the account's token list with the settle token's index (health/cache.rs:775): perp positions are
    valued at the price of whatever token comes first in the account, so whether collateral fees are charged depends on the order in
    which the account opened its tokens (`C62_wrong_settle_price`), and for settle tokens with a large index it aborts.
21. Perp liquidation with `init_overall_asset_weight > 1 - positive_pnl_liquidation_fee` (for instance weight 1 and fee 5%): the third sizing
    step counts a lot's gain at `1 - fee` expecting a settlement the fourth step then skips. A liqor that passes a large `max_pnl_transfer`
    reduces more base than needed, by up to `weight / (1 - fee)` of the deficit (`C63_overliquidation`; else `C63_not_more_than_needed`).
22. token_deposit.rs:139 "depositing can only increase health" is false: with a token reserved in two spot markets, a deposit can lower health
    (`C64_deposit_can_lower_health`: maintenance health from +10 to -30). Anyone can deposit into an existing position, so a third party can
    make such an account liquidatable. Otherwise health does not fall (`C64_deposit_health`).
23. token_force_close_borrows_with_token.rs:69-75 compares only init liability weights: closing borrows by force can make a healthy
    account liquidatable (`C65_maint_health_can_fall`: maintenance health from +1 to below -12), and it lowers even init-weighted health
    if the token also lies free in an open orders account (`C65_health_can_fall`). The new borrow of the other token is made without
    net borrow or utilisation check.
24. `Bank::from_existing_bank` (state/bank.rs:380) sets `fallback_oracle: existing_bank.oracle`: a bank added to a token has another
    fallback oracle than its siblings and the mint info (`C66_fallback_differs`).
25. `Bank::verify` checks the order of maintenance and initial weights, and the zero weight of tokens excluded from liquidation, only for
    the stored weights. A weight shift can take the maintenance asset weight below the initial one (then accounts can be liquidated right
    after borrowing, and the security admin cannot abort the shift because `verify` fails, `C66_shift_order`), and can give a token that
    nobody can liquidate a positive weight (`C66_shift_unliquidatable`).
26. `require_gte!` accepts NaN, so `verify` does too (`C66_nan`); token_edit accepts a net borrow window of zero seconds and leaves
    `force_close` on when a token stops being reduce-only (`C66_unchecked`); perp_edit_market checks only that the initial base asset weight
    is not negative (`C66_perp_unchecked`).
27. **Forced closing of perp positions ignores fills that are not processed yet** (`C69_flat_becomes_short`): a flat account (10 long, 10
    just sold with the fill pending) is turned 10 short, in a market where it could not have opened that position itself.
28. **Maximum borrow fails for tokens with a low native price** (`C70_low_price_fails`): the upper end of the search in
    `max_borrow_for_health_fn` is health divided by the liability weight but not by the price; the ratio there is still above the wanted one
    and the search returns an error.
29. **Maximum borrows and swaps leave out the loan fee** (`C70_borrow_fee_left_out`): after borrowing the computed maximum the ratio is
    below the wanted one, by up to the fee rate.
30. **The net borrow limit for swaps uses another price than the program** (`C70_swap_limit_exceeded`): `apply_limits_to_swap` divides by
    the oracle price, `check_net_borrows` multiplies by the larger of oracle and stable price, so the amount can be refused.
31. **Freezing leaves gaps** (`C71_frozen_still`): `perp_cancel_all_orders` and `perp_cancel_order_by_client_order_id` lack the check;
    in `account_buyback_fees_with_mngo` the check for the receiving account asks the paying account
    (accounts_ix/account_buyback_fees_with_mngo.rs:25).
32. **A temporary delegate cannot be named or removed alone** (`C71_temporary_alone`): account_edit.rs:18-21 asks for a name or a delegate.
33. **Settling can lower the payer's health while fills are pending** (`pending_settlement_lowers_health`): the loss that `perp_settle_pnl` settles
   leaves out fills waiting in the event queue, health counts them; an account that has closed its position at a profit can be made to pay its
   old loss in full while the perp position's gain counts only with the overall asset weight.
34. **The insurance fund and other traders also pay for accounts that could pay** (`C73_solvent_paid`): perp bankruptcy starts when no more can be settled, judged by what maintenance
   health lets settle and by the settle limit of the window. An account with assets of 47 and a perp loss of 40 gets up to the amount by which its maintenance health is negative covered; with the settle
   limit of the window used up (`exUsed_history`: settle part of an open loss, then close) up to the amount by which its init-weighted health is negative, although in the next window it would pay itself.
35. **Cancelling with limit 0 panics** (`C74_limit_zero`): `cancel_all_orders` with limit 0 counts the limit down below zero at the first
    matching order and fails; without an order it succeeds.
36. **`matched_quantity` returns at most, not at least** (`C76_matched_quantity`, case in Props/DepthEx): its comment promises the quantity
    "to match at least the requested amount" and speaks of rounding up, but it rounds up what it takes away, so the result is the largest
    quantity that costs at most the amount. Bids 5 @ 100 and 5 @ 40: for 530 it says 5, which bring in 500. Nothing in the repository calls it.
37. **The fills service panics at the ring's ends** (`C77_crash`): fill_event_filter.rs indexes `events[head - 1]` for the head's sequence number; in a new market, and whenever a multiple of
    488 events has been consumed in either of the two versions compared, head is 0 and the index underflows.
38. **Head updates are wrong while the queue is full** (`C77_full_queue_head`): the event before the head is then the newest, not the last consumed one.
39. **Oracle moves do not reach the asks of the order book feed** (`C78_asks_stale`): both sides share the last-seen version of the oracle account and bids come first, so asks pegged to the
    oracle keep their old prices until the asks account itself changes.
40. **Updates of orders are sent only if orders both came and went** (`C78_orders_missing`): orderbook_filter.rs tests `!additions.is_empty() && !removals.is_empty()`; a subscriber of orders
    misses every pure placement and every pure cancellation. Orders with equal price, size and owner are not told apart either.
41. The client library leaves fallback oracles out of the account list that are another position's oracle, and the program looks for fallbacks only
   behind the open orders accounts: the fallback is not used although its account is passed (`C80_fallback_is_oracle`). When scanning, the same happens to
   quote feeds of pool fallbacks (`C80_quote_is_oracle`).
42. The library's map of fallbacks is by oracle: of two tokens with the same oracle and different fallbacks only one fallback is passed
   (`C80_shared_oracle`); for a token whose own oracle is a pool the quote feed is not passed (`C80_pool_oracle`).
43. Liquidator: candidates for conditional swaps are listed together with their volume (tcs_state.rs:46-53, main.rs:610); a swap found again while being executed, after its possible volume changed,
   is handed to a second worker at the same time (`C84_same_swap_twice`).
44. Liquidator: an account update that arrives while a scan runs, after the account was checked, is forgotten: the end of the scan clears the marker for new events (liquidation_state.rs:226-229), and no
   scan starts until another update arrives (`C84_update_during_scan`).
45. Client: `CachedAccountFetcher::fetch_multiple_accounts` returns only the accounts that were not cached (account_fetcher.rs:336-338 returns the answer for `missing_keys`), in sorted order
   (`C85_many_drops_cached`). `derive_fallback_oracle_keys` with the dynamic configuration (context.rs:685-687) uses it: a stale oracle that is already cached is not seen, so its fallback is not passed.
46. Client: `clear_cache` leaves running requests registered; a call after it joins them, or finds their answer cached, and gets data from before the clearing (`C85_stale_after_clear`).
47. Client: `fetch_top` for losses can return accounts from which nothing can be settled, as the filter on the sign is made before the health limit is applied (`C86_returns_nothing_to_settle`). The liquidator's
   rebalancer takes the first one (bin/liquidator/src/rebalance.rs:984-1009): if no loser can settle anything, the transaction fails (perp_settle_pnl.rs:125) and the error ends the rebalancing,
   although a comment says that a missing counterparty must not.
48. Settler: the loop over the accounts ends at the first that cannot be settled (settle.rs:251-256), also if later ones could. An account with the flat fee whose gain is exactly the threshold (the loop asks for more,
   the program pays the fee from the threshold on, perp_market.rs:464) stops all accounts with the same or a lower fee in this market (`C87_blocked_at_threshold`); accounts in bad health with a lower fee are not settled if an
   account with the flat fee only misses a large enough counterparty (`C87_blocked_low_health`).
49. Settler: whether an instruction fits in a transaction is only checked if nothing is collected (settle.rs:342); a too large one after others is sent alone, and fails (`C87_oversized_sent`). Failures to send are only logged,
   but the accounts stay marked as recently settled.
50. Liquidator: forbidden tokens are removed from the token list before it is paired with the (complete) list of balances (liquidate.rs:393-404), so that the balances of all tokens after a held forbidden token are those of
   other tokens: the bot gives up on accounts it could liquidate, or sends instructions that fail (`C89_forbidden_shift`).
51. Liquidator: the restrictions on perp markets are not observed when taking over losses (liquidate.rs:283-300, `C89_forbidden_perp`), the list of allowed tokens not for bankruptcies (548-566).
52. Liquidator: "the highest-value perp base position" is the one with the largest number of lots times the price, without the lot size (liquidate.rs:170-176, `C89_lot_sizes`).
53. Liquidator: if not even one cancellation fits into the configured compute limit or a transaction, an empty transaction is sent and reported as success (liquidate.rs:92-111; `C89_possible` assumes that one fits).
54. Liquidator: `tcs_is_interesting` passes the bought token twice to the check of the configuration's token lists (trigger_tcs.rs:444): swaps selling forbidden tokens are triggered, and swaps are left alone if only
   the sold token is on the list of allowed ones (`C90_sold_token_ignored`, `C90_forbidden_sold`).
55. Liquidator: the remaining borrow room is divided by the oracle price while the program measures at the higher of oracle and stable price (trigger_tcs.rs:564-568, bank.rs:938), and `remaining_net_borrows_quote`
   returns an unlimited amount when net borrows in the window are negative (bank.rs:934), although the next borrow is then measured against the limit: executions sized by it fail
   (`C90_stable_price_ignored`, `C90_negative_net_borrows`).
56. Liquidator: expired conditional swaps only need to be closed, but they are left out while borrow or deposit limits leave less than a dollar of room (trigger_tcs.rs:634-657, `C90_expired_waits`).
57. `Bank::verify` does not require asset weights to be at most 1 nor liability weights to be at least 1 (nor do perp_create_market and perp_edit_market): with an asset weight above 1, accounts that owe more than they own can be healthy (C92_weights_not_checked). Only the admin sets weights.
58. `compute_equity` leaves perp positions out (a TODO in the code): the reported equity of an account can be below its maintenance health (exData) or far above what it is worth.
59. **A quote of nothing for nothing passes every price limit** (trigger_tcs.rs:173-177, 200): 0 / 0 is NaN and no comparison holds for it, so it is returned as an acceptable quote (`C93_nan`); an answer of something for nothing is infinity, which `unchecked_quote` reports as an unreachable case.
60. **The rebalancer can never close an open orders account** (rebalance.rs:772-776): it sends the close instruction before the settle instruction in one transaction, and settling needs the open orders account that was just removed (`C94_close_then_settle`). The error also aborts `rebalance_tokens`, so no token is rebalanced while the bot has an open orders account without reserved funds (`C94_blocked`).
61. **A transaction that failed counts as confirmed** (client.rs:2568-2581, confirm_transaction.rs): `send_and_confirm` returns Ok for a transaction that landed, without looking at its error; callers like the rebalancer go on as if it had succeeded.
62. **A route that cannot be prepared drops all others** (rebalance.rs:423-451): `determine_best_swap_tx` returns the first error, although a later route may fit (`C94_route_dropped`).
63. **The keeper looks at ten events, the program consumes at most eight** (crank.rs:265, perp_consume_events.rs:52): the accounts of the last two are passed in vain, and the number of events that is logged as consumed is the number seen.
64. **An empty transaction before instructions that do not fit** (crank.rs:580-594): if the first account's instructions exceed a limit alone, the empty previous batch is sent, and then the instructions anyway (`C95_empty_transaction`).
65. **A swap whose check fails is started anyway** (bin/settler/src/tcs_start.rs:83-92): the error is recorded, but the loop does not `continue`, so the swap is put into a transaction with up to seven others (`C96_error_kept`); if it fails there, none of them is started and every owner's account is charged with an error.
66. **One swap without room stops its group** (tcs_start.rs:106-108): the first swap whose token has no position, when all positions are taken, ends the transaction for all that follow, even those whose token has one (`C96_pick`); if it is the first and nothing else is withdrawn, a transaction without instructions is sent.
67. **The crank service panics at its first update** (bin/service-mango-crank/src/mango_v4_perp_crank_sink.rs:33,77-80; openbook_crank_sink.rs:85-88): main.rs passes pairs of market and queue, which become a map keyed by market, but the sinks ask it for the queue; every update that is not throttled panics and no instruction is ever sent (`C97_panics`; `C97_flipped` is the repair).
68. **A missing spot market shifts all later pairs** (service-mango-crank/src/main.rs:98-122): missing accounts are filtered out before the positions are used to pair markets with queues (`C97_pairs_shifted`).
69. **The pnl service never stores any pnl** (bin/service-mango-pnl/src/main.rs:119-124): it compares the length of the account data with `size_of::<MangoAccount>()`, 616 bytes in the service's memory; on chain only an account with one perp order slot and no positions at all has that length (`C99_nothing`).
70. **The pnl service panics instead of answering** (main.rs:226-236): the entry of each listed account is unwrapped, but accounts without pnl in the market are in the list, and first in ascending order (`C99_panics`); the panic happens while the lock is held for writing, so that every later request and update panics too (read).
71. **Changes of a negative health ratio are not stored** (bin/service-mango-health/src/processors/persister.rs:368): the size of a change is divided by the previous ratio with its sign, so that of an account with a negative ratio no change is ever a big one (`C100_negative`): the accounts of most interest are updated only once per period.
72. **Making room for a spot market can close the position it needs** (lib/client/src/client.rs:1087-1131): the first position that is not in use and holds at most one native unit is withdrawn and closed, also if it is that of the market's own base or quote token; creating the open orders account then fails (`exB`, `C101_iff`). With both tokens missing and fewer than two free positions the transaction always fails: the second withdrawal is planned with a position that exists only in the client's copy, whose bank is listed for the health check (account_retriever.rs:110-111).
73. **Free spot market slots are inspected when looking for one to close** (client.rs:1012-1016): a free slot's `open_orders` is the default key (its data is too short: a panic) or that of the account that was closed there (not found), so if it comes before the slots in use, the order is not placed although room could be made (`C101_inactive`); if nothing can be closed the client panics (1031-1032).
74. **The peg limit of a pegged order does not bind it when it takes.** The limit is stored in the resting order and checked when it is matched, but `new_order` compares opposing prices only with oracle price plus offset (book.rs:97): a pegged bid with offset +10 and peg limit 105 buys at 108 when the oracle price is 100, although it would count as invalid on the book. Lib.rs:1162 documents the limit as the price at which the order expires; one already beyond it still trades. A pegged instruction with an order type that cannot be pegged is also skipped with success, rather than refused, if its expiry has passed (example in Props/Entry).
75. **Transactions that fail on chain are reported as sent successfully** (lib/client/src/client.rs:2572-2580): `wait_for_transaction_confirmation` returns the status with the transaction's error (as its documentation says), but `send_and_confirm` drops it and returns the signature. Only the simulation before sending catches errors; a transaction whose outcome changes between simulation and execution counts as done for all users of the client (liquidator, keeper, settler; example in Props/Confirm).
76. **A transaction can be reported as expired although it landed** (confirm_transaction.rs:81-105): the signature status is asked first and the blockhash's validity afterwards, without asking for the status again, so one landing in one of the last usable blocks between the queries is reported as `BlockhashExpired`; a caller that sends again executes it twice (example in Props/Confirm). Without a timeout waiting does not end either, contrary to the documentation of `timeout`, if the node keeps reporting a status below the wanted commitment.
77. **The liquidator's swap cost estimates never expire** (bin/liquidator/src/token_swap_info.rs): `last_update` is stored but read nowhere, so while quotes fail (or the token is skipped after too many errors) conditional swaps go on being judged by the last quote, however old, relative to an oracle price of that time. Successful updates do not clear the errors before them either: single failures between successes add up until the token is skipped.
78. **The taker test bot deposits too much** (bin/keeper/src/taker.rs:84-107): `ensure_deposit` computes the missing amount, logs it, and deposits the whole desired balance.
79. **The averaged priority fee starts at zero** (lib/client/src/priority_fees.rs:49-110): from the first block on the provider no longer gives the configured fallback but `α` times the block's fee (a fifth, by default), and `1-(1-α)^n` of a steady fee after `n` blocks (C109_start); after a pause of the feed the old average is used again with the first new block. Two more small things there: a lagging receiver makes the job panic (the bot then exits), and the compute limit configured per instruction never applies to instructions prepared with their own units (C109_prepared).
80. **Transactions a node does not know yet are not waited for** (lib/client/src/chain_data_fetcher.rs:166-173): `transaction_max_slot` counts an unknown signature as slot 0, so refreshing "until that slot" ends with the first answers, possibly from before the transaction (C110_unknown). The callers confirm transactions first, but the query may reach another node behind the same address.
* (read) the loops of the health service receive with `Ok(msg) = data.recv()` in a `select!` whose only other arm breaks (health.rs:78-114): a single lag of the channel (8192 messages, e.g. during a slow recomputation) ends the job.
* (read) A HealthCheck of a ratio with a negative minimum guarantees nothing about the ratio with all banks passed: funds that come back with a skipped
  market can lower the liabilities more than the shortfall. A ratio check with minimum 0 passes with a tiny negative health, the quotient is truncated.
* (read) The fills service stores checkpoints under the queue's key and looks them up under the market's, so subscribers never get one; publishing of spot fills is commented out.
* (read) The order book service removes only level subscriptions on unsubscribe; a client that subscribes before the first checkpoint never gets a full book.
* (read) `price_lots_to_ui_perp` (mango-feeds-lib) panics for markets whose base token has fewer decimals than the quote token (`checked_sub(..).unwrap()`).
* (read) A linear auction can be created with start time 0 and then never executes until it expires; conditional swaps whose taker
  fee rate exceeds 100% or whose price including fees exceeds 2^79 or rounds to 0 panic on trigger.
* (read) `Bank::verify` does not compare the maintenance asset weight with the maintenance liability weight, nor the targets of a
  maintenance weight shift with the init weights; the ordering of the three healths (C37) relies on both (see `C55_ordered`).
* (read) `token_liq_bankruptcy` does not look at the liqee's health: it relies on the phase conditions (`require_after_phase2`), under
  which token assets below one native unit do not count.
* (read) The inverse of a bid price is kept as f64 and converted to a 48-bit fraction for health: bids above 2^49 quote units per base
  unit become 0, which means "no price remembered".
* (read) `serum3_register_market` does not require base and quote token to differ; C61 and C59 assume it.
* (read) Perp liquidation: if one lot's gain (base weight against fees) is not positive, the instruction panics and the position cannot be
  liquidated; the limit of the third step compares pnl with settle tokens; the first step counts the part above zero unweighted, so
  a second call can be needed; the cache is adjusted by the nominal token transfer, not by what the indexed positions change.
* (read) `perp_settle_fees` does not refresh the settle limit's window (`update_settle_limit`), `perp_settle_pnl` does.
* (read) HealthRegionBegin and HealthRegionEnd need no signature of the account's owner: anyone can put an account in a region for one transaction. By C79 that does no harm.
* (read) Delisting is limited to testing groups, but `group_edit` lets the admin switch testing mode on at any time; then a delisted token's index can be
  reused for another mint while spot markets and account positions still refer to it (C82 states what holds without that).
* (read) The client library's own health cache (lib/client/src/health_cache.rs:42-56, 76-90) sets `begin_fallback_oracles` to the number of accounts, so it never uses fallback oracles, although their
  accounts are appended.
* (read) `Bank::from_existing_bank` copies `oracle` into `fallback_oracle`.
* (read) `health/cache.rs` `assets_and_liabs` indexes `token_infos` with a token index instead of a position: wrong price or panic.
* (read) `verify` is not preserved by completing a weight shift (targets are not verified against each other).
* (read) `OrderTree::is_full` is conservative; `remove_one_expired` uses `<` where `is_expired` uses `>=`.
* (read) market fees are charged with the exact maker fee while makers are charged at the rate rounded to f32 (quantified in C25,
  C27).
* (read) `CancelProvide` self-trade cancels do not decrement the match limit.
* (read) `cancel_all_orders` with limit 0 panics if an active order exists.
* (read) `perp_create_market` does not validate lot sizes; `serum3_register_market` does not reject index 65535.
* (read) `perp_settle_fees` does not refresh the settle limit window before applying the limit.
* (read) settlements below one native unit use no settle limit.
* (read) `perp_edit_market` does not check the stable price growth limits for sign; `delay_interval_seconds = 0` is accepted.
* (read) `resize_dynamic_content` bounds-checks only the first byte of each memmove; C33 proves the rest stays in bounds.

## Testing the theorems against wrong programs

`tools/mutate.py` applies an edit to a scratch copy of the model, rebuilds and records which theorems fail. The log is
`seeded/LOG.jsonl`. Theorems that survived an edit that made their English claim false were tightened (recorded there).

## Per property: what is modelled and how it is proved

### C01 Deposit then withdraw the same amount never creates a borrow (proved)

* Model: deposit and withdraw of one bank and position (Bank/Model)
* Proof: algebra on rounded-up and floored division
* Theorems: `Mango.Bank.C01_deposit_withdraw_no_borrow`, `Mango.Bank.C01_public`
* Note: all banks with positive indexes (positivity is invariant: C02_totals), all amounts

### C02 Bank totals equal the sum of positions over every history (proved)

* Model: a token: any number of banks and positions, all operations (Bank/System)
* Proof: invariant by induction over histories
* Theorems: `Mango.Bank.C02_totals`, `Mango.Bank.C02_totals_single`
* Note: all histories of all operations incl. several banks; loss socialization assumed smaller than deposits

### C03 Deposit rounding is in the user's favour by less than one index unit (proved)

* Model: deposit (Bank/Model)
* Proof: bounds of the rounded-up division, case analysis on the sign of the position
* Theorems: `Mango.Bank.C03_deposit_rounding`
* Note: any starting position, borrowed or not

### C04 Only the part of a withdrawal exceeding the deposit is borrowed, and only it pays the origination fee (proved)

* Model: withdraw with fee (Bank/Model)
* Proof: case analysis, exact fee
* Theorems: `Mango.Bank.C04_withdraw_excess`

### C05 Net borrow limit per window (proved)

* Model: window counter and check (Bank/Model)
* Proof: state machine over chronological events, induction
* Theorems: `Mango.Bank.C05_window_counter`, `Mango.Bank.C05_check_sound`, `Mango.Bank.C05_check_refuses`, `Mango.Bank.C05_check_exact`, `Mango.Bank.C05_withdraw_event`, `Mango.Bank.C05_deposit_event`
* Note: counter over every chronological event sequence; which event each call feeds; check soundness

### C06 Deposit limit headroom is safe (proved)

* Model: deposit limit check and remaining amount (Bank/Model)
* Proof: floor arithmetic
* Theorems: `Mango.Bank.C06_check_sound`, `Mango.Bank.C06_headroom_is_safe`, `Mango.Bank.C06_check_exact`, `Mango.Bank.C06_headroom_maximal`

### C07 Reduce-only and force-close banks restrict transfers (proved)

* Model: checked_transfer_with_fee (Bank/Model)
* Proof: case analysis, effects of both sides
* Theorems: `Mango.Bank.C07_transfer`

### C08 Interest indexes never decrease (proved)

* Model: compute_index, histories of a token
* Proof: non-negative rates, induction over histories
* Theorems: `Mango.Bank.C08_compute_index_mono`, `Mango.Bank.C08_history_mono`
* Note: deposit index only up to loss socialization, which lowers it by design (C12)

### C09 Depositors are never credited more interest than borrowers are charged (proved)

* Model: compute_index
* Proof: inequalities over all roundings
* Theorems: `Mango.Bank.C09_interest_balance`, `Mango.Bank.C09_borrow_interest`, `Mango.Bank.C09_passed_on`
* Note: elapsed time at most one hour, the cap applied by the instruction

### C10 Interest rate curve is monotone, bounded and computable (proved)

* Model: interest curve (Bank/Model)
* Proof: piecewise linear monotonicity with rounding; counterexample for util0 = 0
* Theorems: `Mango.Bank.C10_linear`, `Mango.Bank.C10_rate_monotone`, `Mango.Bank.C10_rate_bounded`, `Mango.Bank.C10_rate_total`, `Mango.Bank.C10_zero_kink_aborts`
* Note: monotone for ordered rates, bounded, value at zero; computable except exactly when the first kink and the utilization are zero (accepted by verify, division by zero), for rates up to 2^30 and scaling up to 2^40

### C11 Shifting maintenance weights stay between their endpoints (proved)

* Model: maint weights at a timestamp (Bank/Model)
* Proof: interval arithmetic over truncated division
* Theorems: `Mango.Bank.C11_between`, `Mango.Bank.C11_linear`, `Mango.Bank.C11_monotone`, `Mango.Bank.C11_completion_invisible`, `Mango.Bank.C11_configured`

### C12 Token bankruptcy: insurance pays first, then depositors share a bounded loss (proved)

* Model: the whole token_liq_bankruptcy instruction: phase checks on the health cache, loss, insurance amounts, swap with the liqor, socialization loop over all banks, recovery flag
* Proof: unpacking the instruction; arithmetic on index reduction; induction over the banks; reduction to operations of the token history; counterexamples for what is false
* Theorems: `Mango.Liquidation.C12_conditions`, `Mango.Liquidation.C12_insurance`, `Mango.Liquidation.C12_insurance_first`, `Mango.Liquidation.C12_amounts_exact`, `Mango.Liquidation.C12_socialize`, `Mango.Liquidation.C12_ledger`, `Mango.Bank.C12_single_bank`, `Mango.Bank.C12_index_can_become_negative`, `Mango.Bank.C12_break_leaves_bank_behind`
* Note: any number of banks; the index stays positive for losses below all deposits. Two machine-checked counterexamples show what does not hold: the code does not check that bound, and banks after the one that completes the credit keep the old index

### C13 The order tree behaves as a sorted map for every operation history (proved)

* Model: critbit tree in an arena, both trees in one pool (Book/Tree)
* Proof: ghost inductive tree, refinement to a sorted list, induction over histories
* Theorems: `Mango.Book.C13_order_tree_is_sorted_map`, `Mango.Book.C13_spec_insert`, `Mango.Book.C13_spec_remove`
* Note: every history of insert/remove/expire/set-quantity on both trees, any capacity

### C14 Node pool never hands out a node twice and never overruns (proved)

* Model: free list and bump index
* Proof: part of the C13 invariant
* Theorems: `Mango.Book.C14_pool_partition`, `Mango.Book.C14_out_of_space_iff`

### C15 Earliest-expiry bookkeeping is exact (proved)

* Model: expiry fields of inner nodes
* Proof: part of the C13 invariant
* Theorems: `Mango.Book.C15_earliest_expiry_exact`, `Mango.Book.C15_remove_one_expired`, `Mango.Book.C15_no_tif_never`

### C16 Order keys realise price-time priority (proved)

* Model: new_node_key, fixed and pegged price data
* Proof: bit arithmetic
* Theorems: `Mango.Book.C16_fixed_price_time_priority`, `Mango.Book.C16_pegged_price_time_priority`, `Mango.Book.C16_recover`, `Mango.Book.C16_distinct`

### C17 Book iteration merges fixed and pegged orders by priority (proved)

* Model: book side iterator merging two trees
* Proof: merge of sorted lists
* Theorems: `Mango.Book.C17_iteration_by_priority`

### C18 Matching never violates the taker's limits (proved)

* Model: matching loop of new_order
* Proof: induction over the loop with accumulated totals
* Theorems: `Mango.Perp.C18_limits`, `Mango.Perp.C18_lot_prices`
* Note: all books, orders, oracle prices; non-vacuity in Props/MatchEx

### C19 Makers are filled best price first (proved)

* Model: matching loop
* Proof: induction over the loop on the iteration order
* Theorems: `Mango.Perp.C19_buy`, `Mango.Perp.C19_priority`, `Mango.Perp.C19_sell_can_skip`, `Mango.Perp.C19_complete`
* Note: buy orders: unconditionally; sell orders: up to a binding quote limit, the exact exception is in C19_priority and a concrete run showing it is real is C19_sell_can_skip

### C20 Post-only orders never take; post-only-slide never crosses (proved)

* Model: order types and posting
* Proof: case analysis on C17's order
* Theorems: `Mango.Perp.C20_post_only`, `Mango.Perp.C20_no_cross`, `Mango.Perp.C20_slide`, `Mango.Perp.C20_sell_can_cross`
* Note: plus: buy orders never rest crossing; plain limit sells can when the quote limit binds (C20_sell_can_cross)

### C21 Matching conserves lots (proved)

* Model: matching loop, maker updates
* Proof: conservation by induction over the loop
* Theorems: `Mango.Perp.C21_makers`, `Mango.Perp.C21_taker`, `Mango.Perp.C21_posted_exact`, `Mango.Perp.C21_not_posted`, `Mango.Perp.setup_reachable`
* Note: setup_reachable: the hypotheses of C18-C22, C27 hold in every reachable market state

### C22 Self-trade behaviour is honoured (proved)

* Model: self-trade behaviours
* Proof: case analysis in the loop
* Theorems: `Mango.Perp.C22_no_self_fill`, `Mango.Perp.C22_abort`, `Mango.Perp.C27_order_fees`

### C23 The event queue is a FIFO (proved)

* Model: ring buffer (Book/Queue)
* Proof: refinement to a list
* Theorems: `Mango.EventQueue.C23_event_queue_is_fifo`, `Mango.EventQueue.C23_failures`

### C24 Account open-order lot counters match the book and pending events (proved)

* Model: market state machine (Perp/System)
* Proof: invariant over all histories
* Theorems: `Mango.Perp.C24_lot_counters`, `Mango.Perp.C24_slots`
* Note: all histories of place/cancel/consume/deactivate/force-close/liquidate/resize/close over any number of accounts; concrete run in Props/TradingEx

### C25 Open interest and zero-sum positions (proved)

* Model: market state machine
* Proof: invariant over all histories; quote ledger per step
* Theorems: `Mango.Perp.C25_open_interest`, `Mango.Perp.C25_quote_conserved`, `Mango.Perp.C25_quote_place`, `Mango.Perp.C25_quote_liq`, `Mango.Perp.C25_quote_force_close`, `Mango.Perp.C25_force_close_loses_funding`
* Note: quote part: exact up to the f32 rounding of the maker fee (C25_quote_place); force close conserves only when funding was settled before, counterexample C25_force_close_loses_funding

### C26 Late events never touch a reused order slot (proved)

* Model: slots and events of the market state machine
* Proof: invariant: event order ids against slot ids
* Theorems: `Mango.Perp.C26_late_events`

### C27 Perp fee accounting (proved)

* Model: fees in matching and event consumption
* Proof: sums over fills
* Theorems: `Mango.Perp.C27_order_fees`, `Mango.Perp.C27_consumption_fees`

### C28 Funding settlement is exact, idempotent and zero-sum (proved)

* Model: settle_funding, update_funding, zero-sum over the market
* Proof: exact integer identities
* Theorems: `Mango.Perp.C28_settle_exact`, `Mango.Perp.C28_update_funding`, `Mango.Perp.C28_update_rate`, `Mango.Perp.C28_zero_sum`
* Note: all positions; zero-sum in every reachable market state; rate bounds and the hour cap of the update

### C29 Settleable pnl respects the settle limit (proved)

* Model: settle limit fields and all writers
* Proof: potential-function induction over histories
* Theorems: `Mango.Perp.C29_window`, `Mango.Perp.C29_available_limit`, `Mango.Perp.C29_apply_limit`, `Mango.Perp.C29_new_window`, `Mango.Perp.C29_settle_pnl`, `Mango.Perp.C29_settle_fees`, `Mango.Perp.C29_limit_exact`
* Note: all histories of settlements, funding, fees, trades and takeovers in a window; f64 position-value limit is an arbitrary non-negative function

### C30 Settle fee is bounded (proved)

* Model: compute_settle_fee
* Proof: case analysis
* Theorems: `Mango.Perp.C30_settle_fee`, `Mango.Perp.C30_exact`

### C31 Perp loss socialization (proved)

* Model: socialize_loss
* Proof: truncated division bounds over a reachable market
* Theorems: `Mango.Perp.C31_socialize`, `Mango.Perp.C31_nobody_pays`
* Note: every reachable market state; with zero open interest nobody is charged (C31_nobody_pays)

### C32 Account slots are unique and stable (proved)

* Model: slot lists of an account and all instructions touching them (Account/Slots)
* Proof: invariant over all histories
* Theorems: `Mango.Slots.C32_unique`, `Mango.Slots.C32_ensure_token`, `Mango.Slots.C32_stable`, `Mango.Slots.C32_activated`, `Mango.Slots.C32_market_65535_takes_free_slot`
* Note: all histories of slot operations; assumes market indexes are not 65535, which market creation does not enforce (C32_market_65535_takes_free_slot)

### C33 Resizing an account preserves its content (proved)

* Model: bytes of the dynamic account part, overlapping memmoves, header (Account/Bytes, Resize)
* Proof: memmove algebra per section
* Theorems: `Mango.Raw.C33_resize`, `Mango.Raw.C33_account_expand`, `Mango.Raw.C33_size_migration`, `Mango.Raw.C33_create`
* Note: byte-level model with overlapping memmoves; succeeds exactly when the active slots fit

### C34 Buyback fees expire between one and two intervals after accrual (proved)

* Model: buyback fields of an account (Misc/Buyback)
* Proof: ghost list of accruals with timestamps, induction
* Theorems: `Mango.Buyback.C34_lifetime`, `Mango.Buyback.C34_available_fees`, `Mango.Buyback.C34_exchange`, `Mango.Buyback.C34_as_much_as_possible`
* Note: all histories with non-decreasing time, a fixed interval and no saturation of u64

### C35 Liquidation state machine (proved)

* Model: check_health_pre, check_liquidatable, flags
* Proof: state machine, induction
* Theorems: `Mango.Account.C35_liquidatable_only_if_unhealthy`, `Mango.Account.C35_flag_set`, `Mango.Account.C35_flag_stays`, `Mango.Account.C35_history`, `Mango.Account.C35_check_exact`, `Mango.Account.C35_may_act`, `Mango.Account.C35_recovers_with_negative_liq_end_health`
* Note: all histories; health values enter as parameters; C35_recovers_with_negative_liq_end_health: with the health ordering broken (C37_can_fail_with_shared_token) an account recovers with negative liquidation-end health

### C36 Health check after an instruction (proved)

* Model: check_health_post and health region
* Proof: fixed point case analysis, induction over instructions
* Theorems: `Mango.Account.C36_post_check`, `Mango.Account.C36_stays_nonnegative`, `Mango.Account.C36_no_gradual_loss`, `Mango.Account.C36_region`, `Mango.Account.C36_exact`
* Note: the loss below zero over any number of instructions at constant prices is under one native unit

### C37 Init health <= liquidation-end health <= maintenance health (proved)

* Model: health cache: token, spot and perp contributions
* Proof: monotonicity per item; minimization over spot directions; counterexample
* Theorems: `Mango.Health.C37_healths_ordered`, `Mango.Health.C37_healths_ordered_with_orders`, `Mango.Health.C37_can_fail_with_shared_token`
* Note: exact without reserved spot funds, up to rounding with them when tokens are unshared or linear; the remaining case is refuted by a concrete cache

### C38 Health equals assets minus liabilities (proved)

* Model: both asset/liability splittings
* Proof: induction over items with rounding bounds
* Theorems: `Mango.Health.C38_health_is_assets_minus_liabs`
* Note: up to one last-place unit per token for the multiplications

### C39 Amounts for reaching health zero are right (proved)

* Model: max amounts to health zero, perp_max_settle
* Proof: floor and division bounds
* Theorems: `Mango.Health.C39_taken`, `Mango.Health.C39_given`, `Mango.Health.C39_perp_max_settle`

### C40 Health with skipped banks underestimates full health (proved)

* Model: cache construction skipping banks (Health/Build)
* Proof: monotonicity; counterexample
* Theorems: `Mango.Health.C40_skipping_underestimates`, `Mango.Health.C40_skipping_underestimates_exactly`, `Mango.Health.C40_can_exceed_with_shared_token`
* Note: exact without reserved spot funds; up to rounding with them under the stated restriction; the unrestricted claim of the doc comment is refuted by a concrete account

### C41 Perp health uses the worst case of open orders (proved)

* Model: perp health contributions
* Proof: case analysis with rounding
* Theorems: `Mango.Health.C41_worst_case`, `Mango.Health.C41_hupnl_le_upnl`, `Mango.Health.C41_at_most_each_side`

### C42 30-bit fixed-point division accuracy (proved)

* Model: div_i80f48 30-bit variant on bit level
* Proof: shift and error bounds
* Theorems: `Mango.Div30.C42_div30`, `Mango.Div30.C42_smallest_aborts`
* Note: all 128-bit operands; operands equal to the smallest value abort

### C43 Stable price moves are bounded (proved)

* Model: stable price model over rationals with rounding
* Proof: monotone rounding, induction over histories; counterexamples
* Theorems: `Mango.Stable.C43_update`, `Mango.Stable.C43_exact`, `Mango.Stable.C43_history`, `Mango.Stable.C43_reset`, `Mango.Stable.C43_delay_price`, `Mango.Stable.C43_delay_range`, `Mango.Stable.C43_delay_understated_after_gaps`, `Mango.Stable.C43_zero_price_aborts`
* Note: f64 operations are exact operations followed by any monotone rounding with bounded relative error (no overflow/underflow); times below 2^32

### C44 Bad oracles are rejected (proved)

* Model: oracle state and price selection (Oracle/Model)
* Proof: decision logic; counterexamples
* Theorems: `Mango.Oracle.C44_bank_price`, `Mango.Oracle.C44_reads`, `Mango.Oracle.C44_pool`, `Mango.Oracle.C44_good_primary`, `Mango.Oracle.C44_good_price_used`, `Mango.Oracle.C44_no_bad_price`, `Mango.Oracle.C44_perp_price`, `Mango.Oracle.C44_price_nonneg`, `Mango.Oracle.C44_decimals`, `Mango.Oracle.C44_zero_price_accepted`, `Mango.Oracle.C44_pool_deviation_unscaled`, `Mango.Oracle.C44_unreadable_primary_blocks_fallback`, `Mango.Oracle.C44_stub_always_passes`
* Note: prices are non-negative, not positive; pool prices use the unscaled deviation of the quote feed; account bytes abstracted

### C45 Flash loans are settled in the transaction that takes them (proved)

* Model: transactions of mango and other programs, flash loan begin and end (Flash/Model)
* Proof: invariant over the transaction: no loan open, or the coming instructions pass the scan; effects of each booking from Bank/Effect; counterexample
* Theorems: `Mango.Flash.C45_settled`, `Mango.Flash.C45_mango_locked`, `Mango.Flash.C45_loan`, `Mango.Flash.C45_health`, `Mango.Flash.C45_duplicate_bank_erases_debt`
* Note: all transactions, including other programs calling mango; the accounting part assumes that End lists no health account twice, which the code does not enforce: C45_duplicate_bank_erases_debt

### C46 Instruction gate authority (proved)

* Model: gate bitmask and admins (Misc/Gate)
* Proof: bit arithmetic, induction over histories
* Theorems: `Mango.Gate.C46_enable_needs_admin`, `Mango.Gate.C46_stays_disabled`, `Mango.Gate.C46_security_admin_can_disable`, `Mango.Gate.C46_admin_can_set`

### C47 A token stays solvent up to rounding over every history (proved)

* Model: a token with its vault
* Proof: potential function with rounding slack, induction over histories
* Theorems: `Mango.Bank.C47_solvent`, `Mango.Bank.C47_slack_pos`
* Note: socialization only for single-bank tokens

### C48 Pending events can be executed (proved)

* Model: market state machine with deactivation, resizing, closing
* Proof: invariant over all histories; counterexamples for the exceptions
* Theorems: `Mango.Perp.C48_positions_exist`, `Mango.Perp.C48_deactivate_blocks_queue`, `Mango.Perp.C48_shrink_blocks_queue`
* Note: the two exceptions are real: concrete histories after which the event queue cannot be consumed

### C50 Settlement and bankruptcy create no value (proved)

* Model: settlement steps on the market state machine (Perp/SettleSystem)
* Proof: exact ledger identities
* Theorems: `Mango.Perp.C50_market`, `Mango.Perp.C50_settle_pnl`, `Mango.Perp.C50_settle_fees`, `Mango.Perp.C50_bankruptcy`
* Note: every reachable market state; each settlement step leads to a reachable state again

### C51 Open spot orders are valued conservatively (proved)

* Model: health cache, spot orders
* Proof: minimum over directions, rounding bounds
* Theorems: `Mango.Health.C51_orders_valued_conservatively`

### C52 Health only uses matching accounts (proved)

* Model: both account retrievers (Oracle/Retriever)
* Proof: decision logic over arbitrary account lists
* Theorems: `Mango.Oracle.C52_fixed_order`, `Mango.Oracle.C52_fixed_complete`, `Mango.Oracle.C52_optional_banks`, `Mango.Oracle.C52_scanning`, `Mango.Oracle.C52_scan_complete`, `Mango.Oracle.C52_two_banks`

### C53 Token positions in use are counted exactly and stay open (proved)

* Model: use counts in Account/Slots
* Proof: part of the C32 invariant
* Theorems: `Mango.Slots.C53_counts`, `Mango.Slots.C53_needed_position_stays`, `Mango.Slots.C53_can_close`
* Note: all histories of slot operations

### C54 Conditional swaps stay within their owner's limits (proved)

* Model: token conditional swaps: prices, amounts, trigger, start, create (Tcs/Model)
* Proof: exact arithmetic of the amount computation; a trigger's effects from Bank/Effect; induction over the life of a swap
* Theorems: `Mango.Swap.C54_amounts`, `Mango.Swap.C54_trigger_price`, `Mango.Swap.C54_premium_bounds`, `Mango.Swap.C54_auction_rises`, `Mango.Swap.C54_fees_never_underflow`, `Mango.Swap.C54_trigger_limits`, `Mango.Swap.C54_trigger_ledger`, `Mango.Swap.C54_trigger_conserves`, `Mango.Swap.C54_trigger_health`, `Mango.Swap.C54_trigger_recovers`, `Mango.Swap.C54_trigger_done`, `Mango.Swap.C54_life`, `Mango.Swap.C54_start`, `Mango.Swap.C54_reduce_only_stuck`
* Note: f64 operations are exact operations followed by any monotone idempotent rounding; health is a function of the environment (C36 for the check itself)

### C55 Health is the documented formula (proved)

* Model: health from banks, perp markets, open orders accounts and prices (Health/FromState), specification Health/Formula
* Proof: unfold the passes over tokens, perps and spot markets into sums; monotone rounding for the scaled weights
* Theorems: `Mango.Health.C55_account_health`, `Mango.Health.C55_health_formula`, `Mango.Health.C55_scaled_weights`, `Mango.Health.C55_ordered`
* Note: f64 steps of the weight scaling are exact operations followed by any monotone rounding; token positions of the account are distinct (C32)

### C56 Token liquidation takes no more than needed (proved)

* Model: token_liq_with_token (Liq/Token), cache update and health from Liq/Phases, Health/Model
* Proof: unfold the amounts; exact effect of the position updates; health difference as a change of two terms of the C55 formula; integer arithmetic for the rounding errors
* Theorems: `Mango.Liquidation.C56_conditions`, `Mango.Liquidation.C56_amounts`, `Mango.Liquidation.C56_amounts_exact`, `Mango.Liquidation.C56_ledger`, `Mango.Liquidation.C56_no_overliquidation`, `Mango.Liquidation.C56_stops_at_zero`, `Mango.Liquidation.C56_improves`, `Mango.Liquidation.C56_payment_can_exceed_balance`
* Note: the liqee's health cache shows the weights and prices of the banks (C55); the payment can exceed the asset balance by rounding, bounded in C56_amounts

### C57 Health after an instruction equals health computed afresh (proved)

* Model: in-place updates of the health cache (Health/Update) next to building it from the state (Health/FromState)
* Proof: invariant: the cache describes the state up to the scaled init asset weights; both computations have the C55 formula as value
* Theorems: `Mango.Health.C57_health`, `Mango.Health.C57_tracking`, `Mango.Health.C57_init_at_least`, `Mango.Health.C57_post_check_more_lenient`, `Mango.Health.C57_skipping`
* Note: updates of the three kinds the instructions use, with bank configuration, oracle prices and indexes unchanged between building the cache and the check

### C58 Loan fees on spot orders are charged once, when the loan leaves (proved)

* Model: spot order placement, settling, force cancelling (Serum/Model); the exchange is an arbitrary environment
* Proof: ledger of borrowed and charged amounts; induction over histories with the invariant borrowed = charged + pending
* Theorems: `Mango.Serum.C58_charged_once`, `Mango.Serum.C58_place`, `Mango.Serum.C58_settle`, `Mango.Serum.C58_no_trade_no_fee`
* Note: the spot exchange is an arbitrary environment: it may return any open orders account and vault amounts; case: exHistory

### C59 Remembered order prices bound the orders on the book (proved)

* Model: remembered prices and amounts of a spot open orders account (Serum/Model)
* Proof: induction over histories of orders on the book; monotone rounding
* Theorems: `Mango.Serum.C59_extremes`, `Mango.Serum.C59_attained`, `Mango.Serum.C59_health`, `Mango.Serum.C59_potential`, `Mango.Serum.C59_price`
* Note: the exchange reports correctly whether the account has orders on a side; f64 steps are exact operations followed by a monotone rounding; case: exTrace

### C60 Banks know what spot orders may still return (proved)

* Model: potential tokens of banks and open orders accounts (Serum/Model)
* Proof: invariant: counter of a bank = sum over open orders accounts, updated by differences
* Theorems: `Mango.Serum.C60_potential`, `Mango.Serum.C60_two_banks_drift`
* Note: tokens with one bank; with several banks for a token the counters drift (C60_two_banks_drift)

### C61 Spot orders cannot be used to exceed limits (proved)

* Model: serum3_place_order and serum3_liq_force_cancel_orders (Serum/Model) with the health cache of Health/Update
* Proof: the in-place updates of the instruction are updates in the sense of C57; checks by unfolding
* Theorems: `Mango.Serum.C61_health`, `Mango.Serum.C61_recovers`, `Mango.Serum.C61_reduce_only`, `Mango.Serum.C61_limits`, `Mango.Serum.C61_band`, `Mango.Serum.C61_cancel`, `Mango.Serum.forceCancel_misses_fee`
* Note: inside health regions the health part is checked at the end of the region (C36); cases: exPlace_hyps, exReduceOnly; forceCancel_misses_fee: the end of a liquidation by cancelling overlooks the fee it charges

### C62 Collateral fees are bounded and charged at most once per interval (proved)

* Model: token_charge_collateral_fees and assets_and_liabs (Misc/Collateral)
* Proof: the loops compute sums of plain formulas; integer arithmetic for the bounds; induction over calls for the time
* Theorems: `Mango.Collateral.C62_time`, `Mango.Collateral.C62_charge`, `Mango.Collateral.C62_bounds`, `Mango.Collateral.C62_nothing`, `Mango.Collateral.C62_ledger`, `Mango.Collateral.C62_wrong_settle_price`, `Mango.Collateral.C62_settle_index_aborts`
* Note: the liabilities compared with 100 dollars are those the code computes, which look up the settle price of perps at the wrong place (C62_wrong_settle_price); cases: exCharged, exTimes

### C63 Perp liquidation: conditions, fair amounts, not more than needed (proved)

* Model: perp_liq_base_or_positive_pnl (Liq/PerpBase) on perp positions, settle bank and health cache
* Proof: each sizing step is described by plain arithmetic; invariants over the five steps (within limits; health without the last lot not positive; the projected balance covers what the position counts for); exact effect on the C55 formula
* Theorems: `Mango.Liquidation.C63_conditions`, `Mango.Liquidation.C63_trade`, `Mango.Liquidation.C63_takeover`, `Mango.Liquidation.C63_not_more_than_needed`, `Mango.Liquidation.C63_enough`, `Mango.Liquidation.C63_overliquidation`
* Note: not more than needed: for markets with init_overall_asset_weight <= 1 - positive_pnl_liquidation_fee or without pnl takeover; else it fails (C63_overliquidation); cases: exPerp_short, exPerp_long, exPerp_hyps, exPerp_reflects

### C64 Deposits and withdrawals move exactly the stated tokens (proved)

* Model: token_deposit, token_deposit_into_existing, token_withdraw, token_force_withdraw (Wallet/Model) on account state, bank, vault and wallet
* Proof: bank effects from Bank/*; health through C57 (withdraw) and through the exact worth of C41's bounds with a raised balance (deposit)
* Theorems: `Mango.Wallet.C64_withdraw`, `Mango.Wallet.C64_no_loan`, `Mango.Wallet.C64_loan`, `Mango.Wallet.C64_withdraw_all`, `Mango.Wallet.C64_delegate`, `Mango.Wallet.C64_withdraw_health`, `Mango.Wallet.C64_withdraw_recovers`, `Mango.Wallet.C64_deposit`, `Mango.Wallet.C64_deposit_limits`, `Mango.Wallet.C64_deposit_recovers`, `Mango.Wallet.C64_deposit_health`, `Mango.Wallet.C64_force_withdraw`, `Mango.Wallet.C64_deposit_can_lower_health`
* Note: the part on deposits and health needs that no two markets reserve the same token, else it fails (C64_deposit_can_lower_health); the group's limit is checked on the assets the code computes; cases: Props/WalletEx

### C65 Closing borrows by force takes a bounded price (proved)

* Model: token_force_close_borrows_with_token (Liq/ForceClose) on account state, banks and positions
* Proof: bank effects from Bank/*; the health of two states that differ in two token positions differs by two terms of the C55 formula (Props/HealthRecache); integer arithmetic with the weight condition
* Theorems: `Mango.Liquidation.C65_conditions`, `Mango.Liquidation.C65_amounts`, `Mango.Liquidation.C65_ledger`, `Mango.Liquidation.C65_health`, `Mango.Liquidation.C65_maint_health_can_fall`, `Mango.Liquidation.C65_health_can_fall`
* Note: the health part holds for liquidation-end health under the stated conditions; maintenance health can fall (C65_maint_health_can_fall), and liquidation-end health if the token also counts elsewhere (C65_health_can_fall); cases: Props/ForceCloseEx

### C66 Token configurations stay valid and consistent, and only the right admin changes them (proved)

* Model: token_register, token_register_trustless, token_edit, token_add_bank, perp_edit_market, serum3_edit_market and Bank::verify (Config/Model) with all settings; floats with NaN and infinities; the edit as a list of steps, in the order of the code
* Proof: the steps are run symbolically once to get a field-by-field specification (Config/Spec, Config/Steps); the rest follows from it by induction over histories
* Theorems: `Mango.Config.C66_valid`, `Mango.Config.C66_edit`, `Mango.Config.C66_security`, `Mango.Config.C66_authority`, `Mango.Config.C66_banks`, `Mango.Config.C66_abort`, `Mango.Config.C66_perp`, `Mango.Config.C66_spot`, `Mango.Config.C66_fallback_differs`, `Mango.Config.C66_shift_order`, `Mango.Config.C66_shift_unliquidatable`, `Mango.Config.C66_nan`, `Mango.Config.C66_unchecked`, `Mango.Config.C66_perp_unchecked`
* Note: banks of a token can disagree on the fallback oracle (C66_fallback_differs); bounds of float settings are also passed by NaN (C66_nan); the order of weights holds for the stored weights, not during a shift (C66_shift_order); cases: Props/ConfigListing, Props/ConfigMarkets

### C67 Tokens listed without the group admin are harmless and limited in number (proved)

* Model: token_register_trustless with its quota (Config/Model)
* Proof: computation for the fixed settings; induction over the listings for the quota
* Theorems: `Mango.Config.C67_listing`, `Mango.Config.C67_complete`, `Mango.Config.C67_quota`, `Mango.Config.C67_spot`
* Note: weeks are counted from the epoch; cases: Props/ConfigListing

### C68 Perp orders respect reduce-only rules and health, and touch only their owner (proved)

* Model: perp_place_order (Perp/OrderIx): funding update, reduce-only rules, the order of Perp/Place, health before and after in the cache updated in place
* Proof: each instruction is a step of Perp/System, so its invariants apply; a relation between positions (no more exposure) shown for every step, induction over histories; health through C57
* Theorems: `Mango.PerpOrder.C68_is_step`, `Mango.PerpOrder.C68_only_owner`, `Mango.PerpOrder.C68_reduce_only`, `Mango.PerpOrder.C68_market_reduce_only`, `Mango.PerpOrder.C68_exposure`, `Mango.PerpOrder.C68_no_new`, `Mango.PerpOrder.C68_health`
* Note: cases: Props/PerpOrderEx

### C69 Closing perp positions by force moves the smaller position at the oracle price (proved)

* Model: perp_force_close_position (forceCloseOp in Perp/System) and the health value of perp positions
* Proof: unfolding; floors of sums for the health part
* Theorems: `Mango.PerpForce.C69_force_close`, `Mango.PerpForce.C69_no_flip`, `Mango.PerpForce.C69_pnl`, `Mango.PerpForce.C69_health`, `Mango.PerpForce.C69_flat_becomes_short`
* Note: only settled lots are looked at: with fills pending a flat account can become short (C69_flat_becomes_short); funding is not settled (C25_force_close_loses_funding); cases: Props/PerpOrderEx

### C70 The client library's maximum amounts keep the wanted health ratio and are nearly the largest (proved)

* Model: health/client.rs (Client/Search, Client/Model): doubling scan, bisection, search for a maximum, and the borrow, swap and perp computations on the health cache
* Proof: invariants of the search loops (Client/SearchLemmas): the bisection keeps a value on each side of the target, the maximum search keeps the top inside a centred bracket that shrinks; the computations follow by cases
* Theorems: `Mango.Client.C70_find_maximum_ends`, `Mango.Client.C70_find_maximum_hill`, `Mango.Client.C70_binary_search`, `Mango.Client.C70_binary_search_total`, `Mango.Client.C70_scan_right`, `Mango.Client.C70_max_borrow`, `Mango.Client.C70_max_swap`, `Mango.Client.C70_swap_limits`, `Mango.Client.C70_borrow_limit`, `Mango.Client.C70_max_swap_with_limits`, `Mango.Client.C70_max_perp`, `Mango.Client.C70_is_liquidatable`, `Mango.Client.C70_swap_preview`, `Mango.Client.C70_borrow_preview`, `Mango.Client.C70_trade_preview`, `Mango.Client.C70_low_price_fails`, `Mango.Client.C70_borrow_fee_left_out`, `Mango.Client.C70_swap_limit_exceeded`
* Note: the ratios are those of the cache the library computes, which leaves out loan fees (C70_borrow_fee_left_out); for tokens with a low native price the maximum borrow fails (C70_low_price_fails); the limits of swaps value net borrows at the oracle price, the program at the larger of oracle and stable price (C70_swap_limit_exceeded); cases: Props/ClientEx

### C71 Only the owner and the delegates the owner named control an account, and freezing stops them (proved)

* Model: the rights in the fixed part of accounts, account_edit, account_toggle_freeze, sequence_check, account_close, and a table of the signature and freeze checks of all instructions on mango accounts (Auth/Model)
* Proof: an invariant ties every field to the last event of the history that sets it; induction over histories; the tables by cases
* Theorems: `Mango.Auth.C71_rights`, `Mango.Auth.C71_owner_gives`, `Mango.Auth.C71_admin`, `Mango.Auth.C71_freeze`, `Mango.Auth.C71_owner_can_edit`, `Mango.Auth.C71_sequence`, `Mango.Auth.C71_frozen_still`, `Mango.Auth.C71_temporary_alone`
* Note: two cancel instructions and the receiving account of fee buybacks are not stopped by freezing (C71_frozen_still); signatures are trusted; cases: Props/AuthorityEx

### C72 Settling perp profits, losses and fees only moves what is owed, and does not make the payer unhealthy (proved)

* Model: perp_settle_pnl, perp_settle_fees and admin_perp_withdraw_fees as whole instructions on accounts with token and perp positions (Settle/Model)
* Proof: lookups as finite maps (Settle/Lookup); the perp part from C50, the bank part as steps of token histories (Bank/*), health as a change of one token and one perp term of the C55 formula (Props/SettleHealth); induction over fee histories
* Theorems: `Mango.Settlement.C72_settle_pnl`, `Mango.Settlement.C72_tokens`, `Mango.Settlement.C72_profit_health`, `Mango.Settlement.C72_loss_health`, `Mango.Settlement.C72_settle_health`, `Mango.Settlement.C72_settle_fees`, `Mango.Settlement.C72_fee_tokens`, `Mango.Settlement.C72_fee_health`, `Mango.Settlement.C72_withdraw_fees`, `Mango.Settlement.C72_fee_history`, `Mango.Settlement.C72_recorded`, `Mango.Settlement.C72_amount_exact`, `Mango.Settlement.C72_limit_tight`, `Mango.Settlement.C72_fee_amount_exact`, `Mango.Settlement.pending_settlement_lowers_health`
* Note: the health parts assume positions in the settle token that stay open (they are in use by the perp position) and no reserved spot orders; with fills pending the payer's health can fall (pending_settlement_lowers_health); cases: Props/SettlementEx

### C73 Negative perp pnl is liquidated fairly, and perp losses reach the insurance fund and other traders only below zero health (proved)

* Model: perp_liq_negative_pnl_or_bankruptcy as a whole instruction (Liq/PerpNegative) on top of Perp.bankruptcy
* Proof: amounts by taking the code apart (PerpNegAmounts), tokens as steps of token histories, perp positions from C50, health as a change of one token and one perp term of the C55 formula with the zero-health lemma C39_given
* Theorems: `Mango.Liquidation.C73_conditions`, `Mango.Liquidation.C73_moves`, `Mango.Liquidation.C73_amounts`, `Mango.Liquidation.C73_health`, `Mango.Liquidation.C73_solvent_paid`
* Note: health parts assume the cache was made from the accounts (C55) with ordered weights; solvent accounts can be paid, see C73_solvent_paid; cases: Props/PerpNegEx

### C74 Orders can always be cancelled, cancelling touches nothing else, and never lowers health (proved)

* Model: cancelling by id, client id and all (Perp/System), perp_liq_force_cancel_orders (Perp/CancelIx)
* Proof: one slot at a time from the reachable-state invariant (which slot names which order), composed along the loop; health from the worse-of-bids-and-asks formula by monotonicity of the weighted base value
* Theorems: `Mango.PerpCancel.C74_cancel_by_id`, `Mango.PerpCancel.C74_cancel_by_client`, `Mango.PerpCancel.C74_cancel_missing`, `Mango.PerpCancel.C74_cancel_all`, `Mango.PerpCancel.C74_cancel_all_clears`, `Mango.PerpCancel.C74_value`, `Mango.PerpCancel.C74_health`, `Mango.PerpCancel.C74_force_cancel`, `Mango.PerpCancel.C74_limit_zero`
* Note: the lot counters must fit i64 (LotsFit); health parts assume ordered weights, non-negative prices and no funds in open spot orders; with limit 0 the call panics if there is an order (C74_limit_zero); cases: Props/CancelEx

### C75 Placing an order removes other orders of its own side only for the stated reasons, and gets an id of its own (proved)

* Model: new_order with dropping an expired order and evicting the worst (Perp/Model, Book/*)
* Proof: from the decomposition of a placed order (Perp/Place): the own side as a set of orders before and after, worst order from C23
* Theorems: `Mango.Perp.C75_own_side`, `Mango.Perp.C75_fresh_id`
* Note: cases: Props/PostingEx

### C76 The book's quotes are right and an order gets what they promise (proved)

* Model: quantity_at_price, best_price, impact_price, matched_amount, matched_quantity (Book/Side)
* Proof: the merged iterator is a sorted permutation of the orders that can trade (C23); induction over it; the order part by induction over the trace of the matching loop
* Theorems: `Mango.Perp.C76_quantity`, `Mango.Perp.C76_best`, `Mango.Perp.C76_impact`, `Mango.Perp.C76_amount`, `Mango.Perp.C76_matched_none`, `Mango.Perp.C76_matched_quantity`, `Mango.Perp.C76_order`
* Note: quantity for an amount: at most, not at least as the comment in the code says (finding 36); cases: Props/DepthEx

### C77 The fills feed reports each fill of a perp market exactly once, in order, and takes back those of abandoned forks (proved)

* Model: the fills filter (Feeds/Fills) on the event queue of Book/Queue
* Proof: the ring is a window of the log of all events; two versions share a prefix of the log; sums over the window for the net count, induction over the versions
* Theorems: `Mango.Feeds.C77_exactly_once`, `Mango.Feeds.C77_in_order`, `Mango.Feeds.C77_head`, `Mango.Feeds.C77_checkpoint`, `Mango.Feeds.C77_crash`, `Mango.Feeds.C77_full_queue_head`, `Mango.Feeds.C77_market`
* Note: versions are Chain histories of the queue, forks at most the ring's capacity deep; the service stops at C77_crash, so the counting statements are for runs that are alive; cases: fxA, fxB, fxC, fxSeen

### C78 A subscriber of the order book feed that applies the updates to its checkpoint has the book's levels (proved)

* Model: publish_changes, the filter loop, the receiver and a subscriber (Feeds/Book)
* Proof: levels of a sorted list by induction; an update gives the new quantities, so applying it again changes nothing; invariant over all schedules: catching up from the view, the checkpoint, or a checkpoint on its way gives the service's levels
* Theorems: `Mango.BookFeed.C78_update`, `Mango.BookFeed.C78_checkpoint`, `Mango.BookFeed.C78_subscriber`, `Mango.BookFeed.C78_subscriber_now`, `Mango.BookFeed.C78_current`, `Mango.BookFeed.C78_asks_stale`, `Mango.BookFeed.C78_orders`, `Mango.BookFeed.C78_orders_missing`, `Mango.BookFeed.C78_book`, `Mango.BookFeed.C78_market_sorts`, `Mango.BookFeed.C78_level`
* Note: prices and quantities are rationals, sums are rounded by an arbitrary function; the conversion of lots is monotone; the asks do not follow the oracle (C78_asks_stale) and updates of orders are missing (C78_orders_missing); cases: bxOps, bx_sorts

### C79 A health region only postpones an account's health check: none is left open, and its effect on health is checked as a whole (proved)

* Model: health_region_begin and _end in transactions of top-level instructions and calls from other programs (Region/Model)
* Proof: the search for the end gives the shape of the rest of the transaction; induction over its length with the invariant that only the account of the open region is marked; the health part from C36
* Theorems: `Mango.Region.C79_blocks`, `Mango.Region.C79_none_left`, `Mango.Region.C79_healthy`, `Mango.Region.C79_begin_fails`, `Mango.Region.C79_begin_iff`
* Note: other instructions of mango are arbitrary functions that do not touch the region fields (Tame) and, outside regions, keep healthy accounts healthy (Respects: their own checks, C36, C61, C68); the runtime's rule that mango is not entered again while running is built in; cases: rx_tame and the examples beside it

### C80 The health accounts the client library passes are the ones the program needs (proved)

* Model: deriving health accounts in the client library (Client/Accounts) on the slots of Account/Slots, read by Oracle/Retriever
* Proof: slot invariants (C32, C53) give the positions of the library's copy, C52's completeness theorems the lookups; price reading depends only on the feed of the pool's quote token
* Theorems: `Mango.ClientAccounts.C80_fixed`, `Mango.ClientAccounts.C80_scan`, `Mango.ClientAccounts.C80_two`, `Mango.ClientAccounts.C80_known`, `Mango.ClientAccounts.C80_known_only`, `Mango.ClientAccounts.C80_fallback_is_oracle`, `Mango.ClientAccounts.C80_quote_is_oracle`, `Mango.ClientAccounts.C80_shared_oracle`, `Mango.ClientAccounts.C80_pool_oracle`
* Note: prices hold under FixedEnough or ScanEnough; that the exceptions are real is shown by the last four theorems; open orders accounts have distinct addresses; cases: cx_reach, cx_ctx and the examples beside them

### C81 A passed HealthCheck holds for the whole account (proved)

* Model: health_check (Health/CheckIx) on the caches of Health/FromState
* Proof: C40 on one view that has the complete data with the flags of the data passed; for ratios, liabilities and assets minus liabilities as sums over the tokens, each monotone in the balance
* Theorems: `Mango.Health.C81_health`, `Mango.Health.C81_health_reserved`, `Mango.Health.C81_ratio`, `Mango.Health.C81_ratio_zero`, `Mango.Health.C81_needed`, `Mango.Health.C81_passes`
* Note: banks are Ordinary (verified, ordered weights, non-negative prices and index); ratio part without funds reserved in spot orders; case: chkState

### C82 A token or market index always means the same thing (proved)

* Model: the accounts of a group by address and the instructions creating and closing them (Config/Registry)
* Proof: an invariant over all histories: what each address holds, and that mint infos and banks name each other
* Theorems: `Mango.Registry.C82_tokens`, `Mango.Registry.C82_bank_listed`, `Mango.Registry.C82_listed_exists`, `Mango.Registry.C82_perps`, `Mango.Registry.C82_spots`, `Mango.Registry.C82_permanent`, `Mango.Registry.C82_spot_tokens`, `Mango.Registry.C82_register_iff`
* Note: accounts are found at program-derived addresses, taken as injective in their seeds; case: ex_serious and the examples beside it

### C83 The insurance fund pays only for bankruptcies or to the admin (proved)

* Model: the insurance vault and the instructions touching it, with SPL token transfers, on top of the two bankruptcies (Liq/Insurance)
* Proof: an invariant over all histories (one vault, of the insurance mint); each step's effect on all token accounts; sums over histories
* Theorems: `Mango.Insurance.C83_vault`, `Mango.Insurance.C83_withdraw`, `Mango.Insurance.C83_change`, `Mango.Insurance.C83_close`, `Mango.Insurance.C83_token`, `Mango.Insurance.C83_perp`, `Mango.Insurance.C83_ledger`
* Note: the amounts of a bankruptcy are C12 and C73; transfers the group signs for bank vaults or that others sign do not start at an insurance vault (program-derived addresses); cases: exHist and the examples beside it

### C84 The liquidator works on each candidate once, and never forgets one (proved)

* Model: the shared state of the liquidator, its two channels and its workers as a transition system (Bots/Workers)
* Proof: an invariant over all interleavings: who holds what, and waiting candidates counted against signals; a decreasing measure for progress
* Theorems: `Mango.Workers.C84_exclusive`, `Mango.Workers.C84_listed`, `Mango.Workers.C84_pull`, `Mango.Workers.C84_priority`, `Mango.Workers.C84_signal`, `Mango.Workers.C84_quiet`, `Mango.Workers.C84_work`, `Mango.Workers.C84_once`, `Mango.Workers.C84_same_swap_twice`, `Mango.Workers.C84_scan`, `Mango.Workers.C84_update_during_scan`
* Note: sections under the lock are atomic, executing a task is open; scans are complete only if accounts do not change during them (C84_update_during_scan); cases: exOps and the examples beside it

### C85 The caching account fetcher returns the right data under all schedules (proved)

* Model: the account cache with its registered jobs as a transition system; data is an address and the time it was read (Client/Fetcher)
* Proof: an invariant over all interleavings (registered jobs are the running ones, cached data is of its address, listed keys are cached), with a lower bound for the age of data
* Theorems: `Mango.Fetcher.C85_one`, `Mango.Fetcher.C85_one_request`, `Mango.Fetcher.C85_cached`, `Mango.Fetcher.C85_retry`, `Mango.Fetcher.C85_program`, `Mango.Fetcher.C85_many`, `Mango.Fetcher.C85_fresh`, `Mango.Fetcher.C85_stale_after_clear`, `Mango.Fetcher.C85_many_drops_cached`
* Note: the underlying fetcher answers with data of the accounts asked for, read between start and answer (Fits); the hash of a list of keys is injective; cases: the runs in C85_stale_after_clear and C85_many_drops_cached

### C86 The accounts with the largest settleable perp pnl are found (proved)

* Model: `fetch_top` on lists of accounts with their pnl and health limit (Client/PerpPnl)
* Proof: the loop leaves a prefix with true values of which `count` are not above the rest; a stable sort puts these first
* Theorems: `Mango.PerpPnl.C86_losses`, `Mango.PerpPnl.C86_gains`, `Mango.PerpPnl.C86_returns_nothing_to_settle`
* Note: `canSettle` is the specification of what can be settled; case: exCands, where accounts with smaller losses overtake larger ones

### C87 The settler's plan respects what accounts can settle and its batches lose nothing (proved)

* Model: the loops that pair gains with losses, over any priority queue, and the batch processor (Bots/Settler)
* Proof: induction over the two loops with the queue written as the initial one minus what was taken; each round uses up an account; an invariant of the batch processor
* Theorems: `Mango.Settler.C87_greedy`, `Mango.Settler.C87_within`, `Mango.Settler.C87_ends`, `Mango.Settler.C87_count`, `Mango.Settler.C87_exhaustive`, `Mango.Settler.C87_settleable`, `Mango.Settler.C87_batches`, `Mango.Settler.C87_batches_fail`, `Mango.Settler.C87_blocked_at_threshold`, `Mango.Settler.C87_blocked_low_health`, `Mango.Settler.C87_oversized_sent`
* Note: account keys are distinct; `PeekOk` says that the priority queue returns a largest element, peekFirst_ok shows one that does; cases: the runs with exMarket and exLimits

### C88 Error tracking skips exactly after repeated recent errors (proved)

* Model: the error tracking with explicit times (Bots/Errors)
* Proof: induction over the history against the list of errors since the last clearing
* Theorems: `Mango.Errors.C88_state`, `Mango.Errors.C88_skip`, `Mango.Errors.C88_complete`, `Mango.Errors.C88_one_more_error`
* Note: C88_complete needs times that do not go back; cases: exTracking with exHistory

### C89 A liquidatable account always has a next step, and the liquidator takes one the program accepts (proved)

* Model: `send_liq_tx` with the selection of markets and tokens on the cache of C55 (Bots/Liquidate)
* Proof: the phases of the cache are translated to the positions; if only losses are left, health is a sum of non-negative values unless a token is owed or pnl is negative
* Theorems: `Mango.Liquidator.C89_phases`, `Mango.Liquidator.C89_when`, `Mango.Liquidator.C89_possible`, `Mango.Liquidator.C89_never_gives_up`, `Mango.Liquidator.C89_wait`, `Mango.Liquidator.C89_restrictions`, `Mango.Liquidator.C89_largest`, `Mango.Liquidator.C89_forbidden_shift`, `Mango.Liquidator.C89_forbidden_perp`, `Mango.Liquidator.C89_lot_sizes`
* Note: `Sane` says that open orders accounts without funds have none of any kind, prices are positive and asset weights not negative; C89_possible needs that no held token is forbidden (see the finding). Cases: exSane, exFair, exUnrestricted and the runs of exRun, one for every outcome

### C90 The liquidator executes conditional swaps as far as bank limits, its own means and its profit target allow (proved)

* Model: the selection and sizing functions on the banks and swaps of the program's model (Bots/Trigger)
* Proof: each reduction of an amount by a limit is shown to give the greatest fitting amount; two reductions compose
* Theorems: `Mango.Trigger.C90_limits`, `Mango.Trigger.C90_total`, `Mango.Trigger.C90_borrow_room`, `Mango.Trigger.C90_borrow_room_tight`, `Mango.Trigger.C90_interesting`, `Mango.Trigger.C90_owner`, `Mango.Trigger.C90_mode`, `Mango.Trigger.C90_listed`, `Mango.Trigger.C90_size`, `Mango.Trigger.C90_volume`, `Mango.Trigger.C90_sold_token_ignored`, `Mango.Trigger.C90_forbidden_sold`, `Mango.Trigger.C90_stable_price_ignored`, `Mango.Trigger.C90_negative_net_borrows`, `Mango.Trigger.C90_expired_waits`
* Note: SellFits and BuyFits are the sets of amounts that fit; the amounts are their greatest elements. C90_sold_token_ignored, C90_forbidden_sold, C90_stable_price_ignored, C90_negative_net_borrows and C90_expired_waits show the exceptions. The health search that gives the unlimited amount is an input (C75 to C77). Cases: exView with the limits of exBank

### C91 The liquidator's run over conditional swaps stays in budget, tries each once, ends, and leaves nothing out that fits (proved)

* Model: the loop as a transition system with arbitrary choices, and the selection of executions on the account slots of C32 (Bots/TriggerRun)
* Proof: an invariant of all reachable states and a decreasing measure; positions by counting free slots
* Theorems: `Mango.TriggerRun.C91_no_panic`, `Mango.TriggerRun.C91_progress`, `Mango.TriggerRun.C91_terminates`, `Mango.TriggerRun.C91_once`, `Mango.TriggerRun.C91_budget`, `Mango.TriggerRun.C91_eager`, `Mango.TriggerRun.C91_complete`, `Mango.TriggerRun.C91_positions`, `Mango.TriggerRun.C91_sent`
* Note: `Found` asks for a list that is not empty (checked by the caller, tcs_state.rs:180) and volumes for which volume plus budget fits in u64; that a preparation's volume is at most the budget is C90_size. Cases: exReach runs through all kinds of iterations, exLiqor has too few slots

### C92 Health never overstates what an account is worth, and reported equity is right (proved)

* Model: compute_equity as a map built entry by entry, ComputeAccountData, the f64 division (Health/Equity); health as in C55
* Proof: debts valued at their rounded weighted price, concavity of worth in the balance as in C51, then oracle prices as bounds; sums regrouped by token
* Theorems: `Mango.Health.Worth.C92_health_le_worth`, `Mango.Health.Worth.C92_healthy_is_solvent`, `Mango.Health.Worth.C92_no_orders`, `Mango.Health.Worth.C92_equity`, `Mango.Health.Worth.C92_equity_total`, `Mango.Health.Worth.C92_account_data`, `Mango.Health.Worth.C92_weights_not_checked`
* Note: Weights on the right side of 1 and positive prices are hypotheses (`BankOk`, `PerpOk`). The f64 division of reserved funds is modelled (`f64Div`) and proved to meet what the other health claims ask of it (f64Div_ok, f64Div_near). Case: exWorth, exData (worth 838, healths -69 and 572.69, equity 335 without perps)

### C93 The liquidator's quote cache gives the lowest price seen, sends one request while it knows none, and never deadlocks (proved)

* Model: calls as a transition system with the mutex of each pair, cut at the awaits (Bots/QuoteCache)
* Proof: an invariant of all reachable states; (5) by induction over the schedule; termination by a measure
* Theorems: `Mango.QuoteCache.C93_lowest`, `Mango.QuoteCache.C93_first_alone`, `Mango.QuoteCache.C93_early_out`, `Mango.QuoteCache.C93_result`, `Mango.QuoteCache.C93_one_request`, `Mango.QuoteCache.C93_progress`, `Mango.QuoteCache.C93_terminates`, `Mango.QuoteCache.C93_route_early_out`, `Mango.QuoteCache.C93_route`, `Mango.QuoteCache.C93_route_error`, `Mango.QuoteCache.C93_nan`
* Note: A call is cut at its awaits; prices are f64 (finite, infinity or NaN), products and quotients rounded by an arbitrary `rnd`. Cases: exRun has a refused first call, a second call that asks itself and lowers the price, a third turned away by the cache and a failed request

### C94 The liquidator's rebalancer reduces positions within its price limits, and cannot close open orders accounts (proved)

* Model: the decisions as functions of what the bot has read (Bots/Rebalance), the program's closing of open orders accounts by Account/Slots, the book by Book/Depth
* Proof: inversion of each decision, bounds of each rounded product; the sort by its order; the defects from the uniqueness of open orders accounts (C32)
* Theorems: `Mango.Rebalance.C94_perp_reduce`, `Mango.Rebalance.C94_perp_rest`, `Mango.Rebalance.C94_dust`, `Mango.Rebalance.C94_swap`, `Mango.Rebalance.C94_limit`, `Mango.Rebalance.C94_route`, `Mango.Rebalance.C94_no_route`, `Mango.Rebalance.C94_route_dropped`, `Mango.Rebalance.C94_close_then_settle`, `Mango.Rebalance.C94_blocked`
* Note: Sizes, sides, prices and decisions are modelled, requests and transactions are not; `moved`, `worst`, `ownOpen` and `val` are the specification. Each case is shown with numbers at the end of Props/Rebalance

### C95 The keeper consumes what it saw, charges whom the program would charge, and batches without loss (proved)

* Model: the keeper's decisions as functions of what it has read (Bots/Keeper), the market by Perp/System, the charge by Misc/Collateral
* Proof: induction over the events looked at, over the events consumed and over the instruction list; every instruction only appends to and pops from the queue (`Feeds.Moves`)
* Theorems: `Mango.Keeper.C95_accounts`, `Mango.Keeper.C95_between`, `Mango.Keeper.C95_consumes`, `Mango.Keeper.C95_selects`, `Mango.Keeper.C95_batches`, `Mango.Keeper.C95_within`, `Mango.Keeper.C95_full`, `Mango.Keeper.C95_empty_transaction`, `Mango.Keeper.C95_tokens`
* Note: The instruction is the one of the model of the market (Perp/System) and its success is a hypothesis: it can fail as C83 says. `C95_between` gives the `j` and `new` of `C95_consumes` for any instructions; `names`, `pending` and `Full` are the specification. Each case is shown with numbers at the end of Props/Keeper

### C96 The settler starts the token conditional swaps that the program accepts (proved)

* Model: the check and the selection as functions of what the bot has read (Bots/TcsStart), the program's instruction by Tcs/Model
* Proof: both decisions are inverted and compared step by step; the bot's trial withdrawal is the program's, and the net borrow check is monotone in the amount; (4) by induction over the group
* Theorems: `Mango.TcsStart.C96_finds`, `Mango.TcsStart.C96_right`, `Mango.TcsStart.C96_considered`, `Mango.TcsStart.C96_error_kept`, `Mango.TcsStart.C96_groups`, `Mango.TcsStart.C96_pick`, `Mango.TcsStart.C96_withdrawn`
* Note: `start`, `incentive` and `checkedTransferWithFee` are the program's (Tcs/Model, Bank/Model). The bot's account is assumed not to owe the sell token, and for (1) the borrow index to be at most 2^47. `newTokens` is the specification of (4). Both sides are shown on numbers at the end of Props/TcsStart

### C97 The crank service reads the pending events, names their accounts, and would consume them (proved)

* Model: the sinks as functions of the queue (Bots/Crank); the program's queue and instruction by Perp/*
* Proof: (1) by C95's lemma on the program's loop; (2) by an invariant between the ring and the list over every history; (3) by evaluation of the look-up for every key
* Theorems: `Mango.Crank.C97_perp`, `Mango.Crank.C97_consumes`, `Mango.Crank.C97_ring`, `Mango.Crank.C97_spot`, `Mango.Crank.C97_panics`, `Mango.Crank.C97_flipped`, `Mango.Crank.C97_pairs`, `Mango.Crank.C97_pairs_shifted`
* Note: `Reachable`, `pending`, `Keeper.names` as in C95; `spotPending` is the specification of a queue with room for `cap` events. The DEX's queue (`push_back`, `pop_front`) is modelled after the serum_dex crate, whose source is not in /repo

### C98 The program's memory allocator gives out separate, aligned blocks inside the heap (proved)

* Model: memory as bytes with a mapped range, `alloc` and `used` on it (Misc/Allocator)
* Proof: an invariant over the history: the stored word is the end of the last block and above all others; the mask arithmetic is rounding up to a multiple, by bits
* Theorems: `Mango.Alloc.C98_alloc`, `Mango.Alloc.C98_disjoint`, `Mango.Alloc.C98_succeeds`, `Mango.Alloc.C98_used`
* Note: `Run` is the specification of what a program does; memory is bytes, with the allocator's word in its first eight; the mask arithmetic is on bits

### C99 The pnl service ranks accounts correctly when it answers, but panics or knows none (proved)

* Model: the updater and the request as functions; the unstable sort as any permutation in order (Bots/Pnl); lengths of accounts by Account/Bytes
* Proof: (2) and (3) by the order of the sorted list, with `none` below all values; (4) by arithmetic on the account layout
* Theorems: `Mango.PnlService.C99_values`, `Mango.PnlService.C99_ranking`, `Mango.PnlService.C99_panics`, `Mango.PnlService.C99_nothing`
* Note: `before` is the specification of the orders. The size of the structure in memory is computed from its fields (the compiler may only add padding; up to 823 bytes the argument is the same). `maxSettle` is `perp_max_settle` of the health cache (C29, C72)

### C100 The health monitoring service's view is current again once the database works, with bounded memory (proved)

* Model: the two functions, the queue of snapshots, the map of what was persisted and the table as a list of rows; a write has one of three outcomes (Bots/Persist)
* Proof: an invariant on the queue: buckets increase, the last snapshot holds the newest value of every account held by an earlier one; what was persisted is what the view shows unless a waiting snapshot has the account; rounding monotone
* Theorems: `Mango.Persist.C100_current`, `Mango.Persist.C100_bounded`, `Mango.Persist.C100_negative`
* Note: `Current` and `Close` are the specification. Clock: the times of the events increase; the service's own event order is that of the channel. The deletion of old rows is not modelled

### C101 What the client does to make room for a spot market works on chain exactly when it leaves the market's own tokens alone (proved)

* Model: the planning functions on the slots of an account (Client/SlotPlan), executed with the model of the program's slot handling (Account/Slots) that C32 and C53 are about
* Proof: the difference between missing tokens and free positions: closing a position of another token lowers it by one if the health accounts fit, everything else leaves it; creating the open orders account needs it at most zero
* Theorems: `Mango.SlotPlan.C101_iff`, `Mango.SlotPlan.C101_opens`, `Mango.SlotPlan.C101_harmless`, `Mango.SlotPlan.C101_closes`, `Mango.SlotPlan.C101_inactive`
* Note: `Trade`, `missing`, `mis`, `free`, `closable` are the specification. The account on chain is the one the client planned with; use counts are below 65535

### C102 Closing an account needs everything in it to be closed, can always be brought about, and leaves nothing behind in a perp market (proved)

* Model: the instruction with its constraints (Account/Close) on the slots of an account (Account/Slots) and on the accounts of a perp market (Perp/System)
* Proof: from the use counts (C53): without token positions no use count is positive, so nothing else is open; (2) by induction on the number of things open; (3) from the invariant of the market (C24, C48)
* Theorems: `Mango.AccountClose.C102_iff`, `Mango.AccountClose.C102_can`, `Mango.Perp.C102_orders`
* Note: `Nothing`, `size`, `Allowed` and `booked`, `pending` are the specification. In (2) balances and orders are opaque: whether a position can be emptied is a matter of the bank and the markets. In (3) pending fills as a taker that cancel out remain, see C48

### C103 Only orders their owners placed rest on a perp market's book or trade, and only on their terms (proved)

* Model: the perp market with all its accounts (Perp/System)
* Proof: induction on the history: what one instruction leaves on the book and adds to the queue, from the matching trace (C18, C20) and the invariant of the market
* Theorems: `Mango.Perp.C103_orders`, `Mango.Perp.C103_trades`
* Note: `PlacedIn`, `OnTerms`, `TakesOnTerms`, `MakesOnTerms`, `TradeFrom` with `booked`, `pending`, `tradesAt`, `acceptable`, `restsIn`, `neverTakes`, `worstPeg` are the specification. Fills are made by placing orders and stay in the queue until consumed, so (2) is about every trade there ever is. Who may act for an account is C71

### C104 Over its whole life an order never trades more than its size (proved)

* Model: the perp market with all its accounts (Perp/System)
* Proof: induction on the history: an instruction moves lots of an order from the book into trades and never back (Perp/Moved), and new orders get new ids
* Theorems: `Mango.Perp.C104_lots`, `Mango.Perp.C104_queue`
* Note: `added`, `tradesOf`, `madeLots`, `lotsOf` with `ordersOn`, `pending` are the specification; `added` looks only at orders being placed, which is all that adds events (the second theorem would fail otherwise). What an order that never rests trades is C18

### C105 Expiry, order type and price limits of a perp order hold from the instruction to every trade (proved)

* Model: the entry points in front of perp_place_order (Perp/Entry)
* Proof: an instruction is an order of the market's history or nothing, so C103 applies; the conversion of expiry and type is arithmetic
* Theorems: `Mango.Perp.C105_skipped`, `Mango.Perp.C105_trades`, `Mango.Perp.C105_resting`, `Mango.Perp.C105_limits`
* Note: `Entry.args`, `isPegged`, `worst`, `accepts`, `withinPeg`, `mayTradeAt`, `refused`, `selfTrade` are the specification. Negative clocks panic (order.rs:53) and are not modelled

### C106 What confirming a transaction tells about it (proved)

* Model: the waiting loop over what it sees (Client/Confirm)
* Proof: case analysis of the turn that ends the loop; monotonicity of the world
* Theorems: `Mango.Confirm.C106_confirmed`, `Mango.Confirm.C106_expired`, `Mango.Confirm.C106_timeout`, `Mango.Confirm.C106_ends`, `Mango.Confirm.C106_sent`
* Note: `World` and `Truthful` are the specification of a truthful node. That a confirmed transaction succeeded does not follow (finding 75), nor that an expired one did not land (finding 76): examples beside the theorems

### C107 Errors surface exactly when the retries are used up (proved)

* Model: the counter and the macro (Client/Confirm)
* Proof: induction on the history: the counter is the length of the streak modulo n+1
* Theorems: `Mango.Retry.C107_counter`, `Mango.Retry.C107_retry`
* Note: `streak` is the specification

### C108 The liquidator's swap cost estimates are the last quotes, and swaps it finds plausible pay for the cost (proved)

* Model: the updater with its error tracker (Bots/SwapInfo)
* Proof: induction on the history from its end; field arithmetic
* Theorems: `Mango.SwapInfo.C108_latest`, `Mango.SwapInfo.C108_cost`, `Mango.SwapInfo.C108_round_trip`, `Mango.SwapInfo.C108_profit`
* Note: `Sets` is the specification of an effective update. Costs and profit are stated without the rounding of f64; nothing bounds the age of an estimate (finding 77)

### C109 Transactions the client sends do what was put together, with the stated compute limit and priority fee (proved)

* Model: the budget instructions, prepared instructions and fee provider (Client/Budget)
* Proof: case analysis on what the caller gave; induction on the calls and on the blocks
* Theorems: `Mango.Budget.C109_budget`, `Mango.Budget.C109_total`, `Mango.Budget.C109_prepared`, `Mango.Budget.C109_fee`, `Mango.Budget.C109_start`
* Note: `limits`, `prices`, `work`, `gathered`, `seen` and `weighted` are the specification. f64 is ℚ without rounding; that the fee feed answers truthfully is not modelled (finding 79)

### C110 After sending transactions the client waits until its view of accounts includes them (proved)

* Model: the refresh loop (Client/Refresh)
* Proof: induction on the turns of the loop
* Theorems: `Mango.Refresh.C110_only`, `Mango.Refresh.C110_ends`, `Mango.Refresh.C110_after`, `Mango.Refresh.C110_live`, `Mango.Refresh.C110_unknown`
* Note: the chain data itself is another crate: modelled by what it is told. C110_unknown states the limit: transactions not yet known to the node are not waited for (finding 80)

