K = "Mango.Book."
claim("C13", "proved", [K+"C13_order_tree_is_sorted_map", K+"C13_spec_insert", K+"C13_spec_remove"], "every history of insert/remove/expire/set-quantity on both trees, any capacity")
claim("C14", "proved", [K+"C14_pool_partition", K+"C14_out_of_space_iff"], "")
claim("C15", "proved", [K+"C15_earliest_expiry_exact", K+"C15_remove_one_expired", K+"C15_no_tif_never"], "")
claim("C16", "proved", [K+"C16_fixed_price_time_priority", K+"C16_pegged_price_time_priority", K+"C16_recover", K+"C16_distinct"], "")
claim("C17", "proved", [K+"C17_iteration_by_priority"], "")
claim("C23", "proved", ["Mango.EventQueue.C23_event_queue_is_fifo", "Mango.EventQueue.C23_failures"], "")
P = "Mango.Perp."
claim("C18", "proved", [P+"C18_limits", P+"C18_lot_prices"], "all books, orders, oracle prices; non-vacuity in Props/MatchEx")
claim("C19", "proved", [P+"C19_buy", P+"C19_priority", P+"C19_sell_can_skip", P+"C19_complete"], "buy orders: unconditionally; sell orders: up to a binding quote limit, the exact exception is in C19_priority and a concrete run showing it is real is C19_sell_can_skip")
claim("C20", "proved", [P+"C20_post_only", P+"C20_no_cross", P+"C20_slide", P+"C20_sell_can_cross"], "plus: buy orders never rest crossing; plain limit sells can when the quote limit binds (C20_sell_can_cross)")
claim("C21", "proved", [P+"C21_makers", P+"C21_taker", P+"C21_posted_exact", P+"C21_not_posted", P+"setup_reachable"], "setup_reachable: the hypotheses of C18-C22, C27 hold in every reachable market state")
claim("C22", "proved", [P+"C22_no_self_fill", P+"C22_abort", P+"C27_order_fees"], "")
claim("C27", "proved", [P+"C27_order_fees", P+"C27_consumption_fees"], "")
claim("C24", "proved", [P+"C24_lot_counters", P+"C24_slots"], "all histories of place/cancel/consume/deactivate/force-close/liquidate/resize/close over any number of accounts; concrete run in Props/TradingEx")
claim("C25", "proved", [P+"C25_open_interest", P+"C25_quote_conserved", P+"C25_quote_place", P+"C25_quote_liq", P+"C25_quote_force_close", P+"C25_force_close_loses_funding"], "quote part: exact up to the f32 rounding of the maker fee (C25_quote_place); force close conserves only when funding was settled before, counterexample C25_force_close_loses_funding")
claim("C26", "proved", [P+"C26_late_events"], "")
claim("C48", "proved", [P+"C48_positions_exist", P+"C48_deactivate_blocks_queue", P+"C48_shrink_blocks_queue"], "the two exceptions are real: concrete histories after which the event queue cannot be consumed")
claim("C28", "proved", [P+"C28_settle_exact", P+"C28_update_funding", P+"C28_update_rate", P+"C28_zero_sum"], "all positions; zero-sum in every reachable market state; rate bounds and the hour cap of the update")
claim("C29", "proved", [P+"C29_window", P+"C29_available_limit", P+"C29_apply_limit", P+"C29_new_window", P+"C29_settle_pnl", P+"C29_settle_fees", P+"C29_limit_exact"], "all histories of settlements, funding, fees, trades and takeovers in a window; f64 position-value limit is an arbitrary non-negative function")
claim("C30", "proved", [P+"C30_settle_fee", P+"C30_exact"], "")
claim("C31", "proved", [P+"C31_socialize", P+"C31_nobody_pays"], "every reachable market state; with zero open interest nobody is charged (C31_nobody_pays)")
claim("C50", "proved", [P+"C50_market", P+"C50_settle_pnl", P+"C50_settle_fees", P+"C50_bankruptcy"], "every reachable market state; each settlement step leads to a reachable state again")
H = "Mango.Health."
A = "Mango.Account."
claim("C35", "proved", [A+"C35_liquidatable_only_if_unhealthy", A+"C35_flag_set", A+"C35_flag_stays", A+"C35_history", A+"C35_check_exact", A+"C35_may_act", A+"C35_recovers_with_negative_liq_end_health"], "all histories; health values enter as parameters; C35_recovers_with_negative_liq_end_health: with the health ordering broken (C37_can_fail_with_shared_token) an account recovers with negative liquidation-end health")
claim("C36", "proved", [A+"C36_post_check", A+"C36_stays_nonnegative", A+"C36_no_gradual_loss", A+"C36_region", A+"C36_exact"], "the loss below zero over any number of instructions at constant prices is under one native unit")
claim("C37", "proved", [H+"C37_healths_ordered", H+"C37_healths_ordered_with_orders", H+"C37_can_fail_with_shared_token"], "exact without reserved spot funds, up to rounding with them when tokens are unshared or linear; the remaining case is refuted by a concrete cache")
claim("C38", "proved", [H+"C38_health_is_assets_minus_liabs"], "up to one last-place unit per token for the multiplications")
claim("C39", "proved", [H+"C39_taken", H+"C39_given", H+"C39_perp_max_settle"], "")
claim("C41", "proved", [H+"C41_worst_case", H+"C41_hupnl_le_upnl", H+"C41_at_most_each_side"], "")
claim("C51", "proved", [H+"C51_orders_valued_conservatively"], "")
claim("C40", "proved", [H+"C40_skipping_underestimates", H+"C40_skipping_underestimates_exactly", H+"C40_can_exceed_with_shared_token"], "exact without reserved spot funds; up to rounding with them under the stated restriction; the unrestricted claim of the doc comment is refuted by a concrete account")
B = "Mango.Buyback."
G = "Mango.Gate."
claim("C34", "proved", [B+"C34_lifetime", B+"C34_available_fees", B+"C34_exchange", B+"C34_as_much_as_possible"], "all histories with non-decreasing time, a fixed interval and no saturation of u64")
claim("C46", "proved", [G+"C46_enable_needs_admin", G+"C46_stays_disabled", G+"C46_security_admin_can_disable", G+"C46_admin_can_set"], "")
claim("C42", "proved", ["Mango.Div30.C42_div30", "Mango.Div30.C42_smallest_aborts"], "all 128-bit operands; operands equal to the smallest value abort")
SP = "Mango.Stable."
claim("C43", "proved", [SP+"C43_update", SP+"C43_exact", SP+"C43_history", SP+"C43_reset", SP+"C43_delay_price", SP+"C43_delay_range", SP+"C43_delay_understated_after_gaps", SP+"C43_zero_price_aborts"], "f64 operations are exact operations followed by any monotone rounding with bounded relative error (no overflow/underflow); times below 2^32")
O = "Mango.Oracle."
claim("C44", "proved", [O+"C44_bank_price", O+"C44_reads", O+"C44_pool", O+"C44_good_primary", O+"C44_good_price_used", O+"C44_no_bad_price", O+"C44_perp_price", O+"C44_price_nonneg", O+"C44_decimals", O+"C44_zero_price_accepted", O+"C44_pool_deviation_unscaled", O+"C44_unreadable_primary_blocks_fallback", O+"C44_stub_always_passes"], "prices are non-negative, not positive; pool prices use the unscaled deviation of the quote feed; account bytes abstracted")
claim("C52", "proved", [O+"C52_fixed_order", O+"C52_fixed_complete", O+"C52_optional_banks", O+"C52_scanning", O+"C52_scan_complete", O+"C52_two_banks"], "")
claim("C33", "proved", ["Mango.Raw.C33_resize", "Mango.Raw.C33_account_expand", "Mango.Raw.C33_size_migration", "Mango.Raw.C33_create"], "byte-level model with overlapping memmoves; succeeds exactly when the active slots fit")
SL = "Mango.Slots."
claim("C32", "proved", [SL+"C32_unique", SL+"C32_ensure_token", SL+"C32_stable", SL+"C32_activated", SL+"C32_market_65535_takes_free_slot"], "all histories of slot operations; assumes market indexes are not 65535, which market creation does not enforce (C32_market_65535_takes_free_slot)")
claim("C53", "proved", [SL+"C53_counts", SL+"C53_needed_position_stays", SL+"C53_can_close"], "all histories of slot operations")
FL = "Mango.Flash."
claim("C45", "proved", [FL+"C45_settled", FL+"C45_mango_locked", FL+"C45_loan", FL+"C45_health", FL+"C45_duplicate_bank_erases_debt"], "all transactions, including other programs calling mango; the accounting part assumes that End lists no health account twice, which the code does not enforce: C45_duplicate_bank_erases_debt")
SW = "Mango.Swap."
claim("C54", "proved", [SW+x for x in ["C54_amounts","C54_trigger_price","C54_premium_bounds","C54_auction_rises","C54_fees_never_underflow","C54_trigger_limits","C54_trigger_ledger","C54_trigger_conserves","C54_trigger_health","C54_trigger_recovers","C54_trigger_done","C54_life","C54_start","C54_reduce_only_stuck"]], "f64 operations are exact operations followed by any monotone idempotent rounding; health is a function of the environment (C36 for the check itself)")
claim("C55", "proved", [H+"C55_account_health", H+"C55_health_formula", H+"C55_scaled_weights", H+"C55_ordered"], "f64 steps of the weight scaling are exact operations followed by any monotone rounding; token positions of the account are distinct (C32)")
LQ = "Mango.Liquidation."
claim("C56", "proved", [LQ+x for x in ["C56_conditions","C56_amounts","C56_amounts_exact","C56_ledger","C56_no_overliquidation","C56_stops_at_zero","C56_improves","C56_payment_can_exceed_balance"]], "the liqee's health cache shows the weights and prices of the banks (C55); the payment can exceed the asset balance by rounding, bounded in C56_amounts")
claim("C57", "proved", [H+x for x in ["C57_health","C57_tracking","C57_init_at_least","C57_post_check_more_lenient","C57_skipping"]], "updates of the three kinds the instructions use, with bank configuration, oracle prices and indexes unchanged between building the cache and the check")
SR = "Mango.Serum."
claim("C58", "proved", [SR+x for x in ["C58_charged_once","C58_place","C58_settle","C58_no_trade_no_fee"]], "the spot exchange is an arbitrary environment: it may return any open orders account and vault amounts; case: exHistory")
claim("C59", "proved", [SR+x for x in ["C59_extremes","C59_attained","C59_health","C59_potential","C59_price"]], "the exchange reports correctly whether the account has orders on a side; f64 steps are exact operations followed by a monotone rounding; case: exTrace")
claim("C60", "proved", [SR+x for x in ["C60_potential","C60_two_banks_drift"]], "tokens with one bank; with several banks for a token the counters drift (C60_two_banks_drift)")
claim("C61", "proved", [SR+x for x in ["C61_health","C61_recovers","C61_reduce_only","C61_limits","C61_band","C61_cancel","forceCancel_misses_fee"]], "inside health regions the health part is checked at the end of the region (C36); cases: exPlace_hyps, exReduceOnly; forceCancel_misses_fee: the end of a liquidation by cancelling overlooks the fee it charges")
CO = "Mango.Collateral."
claim("C62", "proved", [CO+x for x in ["C62_time","C62_charge","C62_bounds","C62_nothing","C62_ledger","C62_wrong_settle_price","C62_settle_index_aborts"]], "the liabilities compared with 100 dollars are those the code computes, which look up the settle price of perps at the wrong place (C62_wrong_settle_price); cases: exCharged, exTimes")
claim("C63", "proved", [LQ+x for x in ["C63_conditions","C63_trade","C63_takeover","C63_not_more_than_needed","C63_enough","C63_overliquidation"]], "not more than needed: for markets with init_overall_asset_weight <= 1 - positive_pnl_liquidation_fee or without pnl takeover; else it fails (C63_overliquidation); cases: exPerp_short, exPerp_long, exPerp_hyps, exPerp_reflects")
WL = "Mango.Wallet."
claim("C64", "proved", [WL+x for x in ["C64_withdraw","C64_no_loan","C64_loan","C64_withdraw_all","C64_delegate","C64_withdraw_health","C64_withdraw_recovers","C64_deposit","C64_deposit_limits","C64_deposit_recovers","C64_deposit_health","C64_force_withdraw","C64_deposit_can_lower_health"]], "the part on deposits and health needs that no two markets reserve the same token, else it fails (C64_deposit_can_lower_health); the group's limit is checked on the assets the code computes; cases: Props/WalletEx")
claim("C65", "proved", [LQ+x for x in ["C65_conditions","C65_amounts","C65_ledger","C65_health","C65_maint_health_can_fall","C65_health_can_fall"]], "the health part holds for liquidation-end health under the stated conditions; maintenance health can fall (C65_maint_health_can_fall), and liquidation-end health if the token also counts elsewhere (C65_health_can_fall); cases: Props/ForceCloseEx")
CF = "Mango.Config."
claim("C66", "proved", [CF+x for x in ["C66_valid","C66_edit","C66_security","C66_authority","C66_banks","C66_abort","C66_perp","C66_spot","C66_fallback_differs","C66_shift_order","C66_shift_unliquidatable","C66_nan","C66_unchecked","C66_perp_unchecked"]], "banks of a token can disagree on the fallback oracle (C66_fallback_differs); bounds of float settings are also passed by NaN (C66_nan); the order of weights holds for the stored weights, not during a shift (C66_shift_order); cases: Props/ConfigListing, Props/ConfigMarkets")
claim("C67", "proved", [CF+x for x in ["C67_listing","C67_complete","C67_quota","C67_spot"]], "weeks are counted from the epoch; cases: Props/ConfigListing")
PO = "Mango.PerpOrder."
PF = "Mango.PerpForce."
claim("C68", "proved", [PO+x for x in ["C68_is_step","C68_only_owner","C68_reduce_only","C68_market_reduce_only","C68_exposure","C68_no_new","C68_health"]], "cases: Props/PerpOrderEx")
claim("C69", "proved", [PF+x for x in ["C69_force_close","C69_no_flip","C69_pnl","C69_health","C69_flat_becomes_short"]], "only settled lots are looked at: with fills pending a flat account can become short (C69_flat_becomes_short); funding is not settled (C25_force_close_loses_funding); cases: Props/PerpOrderEx")
CL = "Mango.Client."
claim("C70", "proved", [CL+x for x in ["C70_find_maximum_ends","C70_find_maximum_hill","C70_binary_search","C70_binary_search_total","C70_scan_right","C70_max_borrow","C70_max_swap","C70_swap_limits","C70_borrow_limit","C70_max_swap_with_limits","C70_max_perp","C70_is_liquidatable","C70_swap_preview","C70_borrow_preview","C70_trade_preview","C70_low_price_fails","C70_borrow_fee_left_out","C70_swap_limit_exceeded"]], "the ratios are those of the cache the library computes, which leaves out loan fees (C70_borrow_fee_left_out); for tokens with a low native price the maximum borrow fails (C70_low_price_fails); the limits of swaps value net borrows at the oracle price, the program at the larger of oracle and stable price (C70_swap_limit_exceeded); cases: Props/ClientEx")
AU = "Mango.Auth."
claim("C71", "proved", [AU+x for x in ["C71_rights","C71_owner_gives","C71_admin","C71_freeze","C71_owner_can_edit","C71_sequence","C71_frozen_still","C71_temporary_alone"]], "two cancel instructions and the receiving account of fee buybacks are not stopped by freezing (C71_frozen_still); signatures are trusted; cases: Props/AuthorityEx")
ST = "Mango.Settlement."
claim("C72", "proved", [ST+x for x in ["C72_settle_pnl","C72_tokens","C72_profit_health","C72_loss_health","C72_settle_health","C72_settle_fees","C72_fee_tokens","C72_fee_health","C72_withdraw_fees","C72_fee_history","C72_recorded","C72_amount_exact","C72_limit_tight","C72_fee_amount_exact","pending_settlement_lowers_health"]], "the health parts assume positions in the settle token that stay open (they are in use by the perp position) and no reserved spot orders; with fills pending the payer's health can fall (pending_settlement_lowers_health); cases: Props/SettlementEx")
claim("C73", "proved", [LQ+x for x in ["C73_conditions","C73_moves","C73_amounts","C73_health","C73_solvent_paid"]], "health parts assume the cache was made from the accounts (C55) with ordered weights; solvent accounts can be paid, see C73_solvent_paid; cases: Props/PerpNegEx")
PC = "Mango.PerpCancel."
claim("C74", "proved", [PC+x for x in ["C74_cancel_by_id","C74_cancel_by_client","C74_cancel_missing","C74_cancel_all","C74_cancel_all_clears","C74_value","C74_health","C74_force_cancel","C74_limit_zero"]], "the lot counters must fit i64 (LotsFit); health parts assume ordered weights, non-negative prices and no funds in open spot orders; with limit 0 the call panics if there is an order (C74_limit_zero); cases: Props/CancelEx")
claim("C75", "proved", [P+"C75_own_side", P+"C75_fresh_id"], "cases: Props/PostingEx")
claim("C76", "proved", [P+x for x in ["C76_quantity","C76_best","C76_impact","C76_amount","C76_matched_none","C76_matched_quantity","C76_order"]], "quantity for an amount: at most, not at least as the comment in the code says (finding 36); cases: Props/DepthEx")
FD = "Mango.Feeds."
claim("C77", "proved", [FD+x for x in ["C77_exactly_once","C77_in_order","C77_head","C77_checkpoint","C77_crash","C77_full_queue_head","C77_market"]], "versions are Chain histories of the queue, forks at most the ring's capacity deep; the service stops at C77_crash, so the counting statements are for runs that are alive; cases: fxA, fxB, fxC, fxSeen")
BF = "Mango.BookFeed."
claim("C78", "proved", [BF+x for x in ["C78_update","C78_checkpoint","C78_subscriber","C78_subscriber_now","C78_current","C78_asks_stale","C78_orders","C78_orders_missing","C78_book","C78_market_sorts","C78_level"]], "prices and quantities are rationals, sums are rounded by an arbitrary function; the conversion of lots is monotone; the asks do not follow the oracle (C78_asks_stale) and updates of orders are missing (C78_orders_missing); cases: bxOps, bx_sorts")
RG = "Mango.Region."
claim("C79", "proved", [RG+x for x in ["C79_blocks","C79_none_left","C79_healthy","C79_begin_fails","C79_begin_iff"]], "other instructions of mango are arbitrary functions that do not touch the region fields (Tame) and, outside regions, keep healthy accounts healthy (Respects: their own checks, C36, C61, C68); the runtime's rule that mango is not entered again while running is built in; cases: rx_tame and the examples beside it")
CA = "Mango.ClientAccounts."
claim("C80", "proved", [CA+x for x in ["C80_fixed","C80_scan","C80_two","C80_known","C80_known_only","C80_fallback_is_oracle","C80_quote_is_oracle","C80_shared_oracle","C80_pool_oracle"]], "prices hold under FixedEnough or ScanEnough; that the exceptions are real is shown by the last four theorems; open orders accounts have distinct addresses; cases: cx_reach, cx_ctx and the examples beside them")
claim("C81", "proved", ["Mango.Health."+x for x in ["C81_health","C81_health_reserved","C81_ratio","C81_ratio_zero","C81_needed","C81_passes"]], "banks are Ordinary (verified, ordered weights, non-negative prices and index); ratio part without funds reserved in spot orders; case: chkState")
RE = "Mango.Registry."
claim("C82", "proved", [RE+x for x in ["C82_tokens","C82_bank_listed","C82_listed_exists","C82_perps","C82_spots","C82_permanent","C82_spot_tokens","C82_register_iff"]], "accounts are found at program-derived addresses, taken as injective in their seeds; case: ex_serious and the examples beside it")
IN = "Mango.Insurance."
claim("C83", "proved", [IN+x for x in ["C83_vault","C83_withdraw","C83_change","C83_close","C83_token","C83_perp","C83_ledger"]], "the amounts of a bankruptcy are C12 and C73; transfers the group signs for bank vaults or that others sign do not start at an insurance vault (program-derived addresses); cases: exHist and the examples beside it")
claim("C84", "proved", ["Mango.Workers."+x for x in ["C84_exclusive", "C84_listed", "C84_pull", "C84_priority", "C84_signal", "C84_quiet", "C84_work", "C84_once", "C84_same_swap_twice", "C84_scan", "C84_update_during_scan"]], "sections under the lock are atomic, executing a task is open; scans are complete only if accounts do not change during them (C84_update_during_scan); cases: exOps and the examples beside it")
claim("C85", "proved", ["Mango.Fetcher."+x for x in ["C85_one", "C85_one_request", "C85_cached", "C85_retry", "C85_program", "C85_many", "C85_fresh", "C85_stale_after_clear", "C85_many_drops_cached"]], "the underlying fetcher answers with data of the accounts asked for, read between start and answer (Fits); the hash of a list of keys is injective; cases: the runs in C85_stale_after_clear and C85_many_drops_cached")
claim("C86", "proved", ["Mango.PerpPnl."+x for x in ["C86_losses", "C86_gains", "C86_returns_nothing_to_settle"]], "`canSettle` is the specification of what can be settled; case: exCands, where accounts with smaller losses overtake larger ones")
claim("C87", "proved", ["Mango.Settler."+x for x in ["C87_greedy", "C87_within", "C87_ends", "C87_count", "C87_exhaustive", "C87_settleable", "C87_batches", "C87_batches_fail", "C87_blocked_at_threshold", "C87_blocked_low_health", "C87_oversized_sent"]], "account keys are distinct; `PeekOk` says that the priority queue returns a largest element, peekFirst_ok shows one that does; cases: the runs with exMarket and exLimits")
claim("C88", "proved", ["Mango.Errors."+x for x in ["C88_state", "C88_skip", "C88_complete", "C88_one_more_error"]], "C88_complete needs times that do not go back; cases: exTracking with exHistory")
claim("C89", "proved", ["Mango.Liquidator."+x for x in ["C89_phases", "C89_when", "C89_possible", "C89_never_gives_up", "C89_wait", "C89_restrictions", "C89_largest", "C89_forbidden_shift", "C89_forbidden_perp", "C89_lot_sizes"]], "`Sane` says that open orders accounts without funds have none of any kind, prices are positive and asset weights not negative; C89_possible needs that no held token is forbidden (see the finding). Cases: exSane, exFair, exUnrestricted and the runs of exRun, one for every outcome")
claim("C90", "proved", ["Mango.Trigger."+x for x in ["C90_limits", "C90_total", "C90_borrow_room", "C90_borrow_room_tight", "C90_interesting", "C90_owner", "C90_mode", "C90_listed", "C90_size", "C90_volume", "C90_sold_token_ignored", "C90_forbidden_sold", "C90_stable_price_ignored", "C90_negative_net_borrows", "C90_expired_waits"]], "SellFits and BuyFits are the sets of amounts that fit; the amounts are their greatest elements. C90_sold_token_ignored, C90_forbidden_sold, C90_stable_price_ignored, C90_negative_net_borrows and C90_expired_waits show the exceptions. The health search that gives the unlimited amount is an input (C75 to C77). Cases: exView with the limits of exBank")
claim("C91", "proved", ["Mango.TriggerRun."+x for x in ["C91_no_panic", "C91_progress", "C91_terminates", "C91_once", "C91_budget", "C91_eager", "C91_complete", "C91_positions", "C91_sent"]], "`Found` asks for a list that is not empty (checked by the caller, tcs_state.rs:180) and volumes for which volume plus budget fits in u64; that a preparation's volume is at most the budget is C90_size. Cases: exReach runs through all kinds of iterations, exLiqor has too few slots")
claim("C92", "proved", ["Mango.Health.Worth."+x for x in ["C92_health_le_worth", "C92_healthy_is_solvent", "C92_no_orders", "C92_equity", "C92_equity_total", "C92_account_data", "C92_weights_not_checked"]], "Weights on the right side of 1 and positive prices are hypotheses (`BankOk`, `PerpOk`). The f64 division of reserved funds is modelled (`f64Div`) and proved to meet what the other health claims ask of it (f64Div_ok, f64Div_near). Case: exWorth, exData (worth 838, healths -69 and 572.69, equity 335 without perps)")
claim("C93", "proved", ["Mango.QuoteCache."+x for x in ["C93_lowest", "C93_first_alone", "C93_early_out", "C93_result", "C93_one_request", "C93_progress", "C93_terminates", "C93_route_early_out", "C93_route", "C93_route_error", "C93_nan"]], "A call is cut at its awaits; prices are f64 (finite, infinity or NaN), products and quotients rounded by an arbitrary `rnd`. Cases: exRun has a refused first call, a second call that asks itself and lowers the price, a third turned away by the cache and a failed request")
claim("C94", "proved", ["Mango.Rebalance."+x for x in ["C94_perp_reduce", "C94_perp_rest", "C94_dust", "C94_swap", "C94_limit", "C94_route", "C94_no_route", "C94_route_dropped", "C94_close_then_settle", "C94_blocked"]], "Sizes, sides, prices and decisions are modelled, requests and transactions are not; `moved`, `worst`, `ownOpen` and `val` are the specification. Each case is shown with numbers at the end of Props/Rebalance")
claim("C95", "proved", ["Mango.Keeper."+x for x in ["C95_accounts", "C95_between", "C95_consumes", "C95_selects", "C95_batches", "C95_within", "C95_full", "C95_empty_transaction", "C95_tokens"]], "The instruction is the one of the model of the market (Perp/System) and its success is a hypothesis: it can fail as C83 says. `C95_between` gives the `j` and `new` of `C95_consumes` for any instructions; `names`, `pending` and `Full` are the specification. Each case is shown with numbers at the end of Props/Keeper")
claim("C96", "proved", ["Mango.TcsStart."+x for x in ["C96_finds", "C96_right", "C96_considered", "C96_error_kept", "C96_groups", "C96_pick", "C96_withdrawn"]], "`start`, `incentive` and `checkedTransferWithFee` are the program's (Tcs/Model, Bank/Model). The bot's account is assumed not to owe the sell token, and for (1) the borrow index to be at most 2^47. `newTokens` is the specification of (4). Both sides are shown on numbers at the end of Props/TcsStart")
claim("C97", "proved", ["Mango.Crank."+x for x in ["C97_perp", "C97_consumes", "C97_ring", "C97_spot", "C97_panics", "C97_flipped", "C97_pairs", "C97_pairs_shifted"]], "`Reachable`, `pending`, `Keeper.names` as in C95; `spotPending` is the specification of a queue with room for `cap` events. The DEX's queue (`push_back`, `pop_front`) is modelled after the serum_dex crate, whose source is not in /repo")
claim("C98", "proved", ["Mango.Alloc."+x for x in ["C98_alloc", "C98_disjoint", "C98_succeeds", "C98_used"]], "`Run` is the specification of what a program does; memory is bytes, with the allocator's word in its first eight; the mask arithmetic is on bits")
claim("C99", "proved", ["Mango.PnlService."+x for x in ["C99_values", "C99_ranking", "C99_panics", "C99_nothing"]], "`before` is the specification of the orders. The size of the structure in memory is computed from its fields (the compiler may only add padding; up to 823 bytes the argument is the same). `maxSettle` is `perp_max_settle` of the health cache (C29, C72)")
claim("C100", "proved", ["Mango.Persist."+x for x in ["C100_current", "C100_bounded", "C100_negative"]], "`Current` and `Close` are the specification. Clock: the times of the events increase; the service's own event order is that of the channel. The deletion of old rows is not modelled")
claim("C101", "proved", ["Mango.SlotPlan."+x for x in ["C101_iff", "C101_opens", "C101_harmless", "C101_closes", "C101_inactive"]], "`Trade`, `missing`, `mis`, `free`, `closable` are the specification. The account on chain is the one the client planned with; use counts are below 65535")
claim("C102", "proved", ["Mango."+x for x in ["AccountClose.C102_iff", "AccountClose.C102_can", "Perp.C102_orders"]], "`Nothing`, `size`, `Allowed` and `booked`, `pending` are the specification. In (2) balances and orders are opaque: whether a position can be emptied is a matter of the bank and the markets. In (3) pending fills as a taker that cancel out remain, see C48")
claim("C103", "proved", ["Mango.Perp."+x for x in ["C103_orders", "C103_trades"]], "`PlacedIn`, `OnTerms`, `TakesOnTerms`, `MakesOnTerms`, `TradeFrom` with `booked`, `pending`, `tradesAt`, `acceptable`, `restsIn`, `neverTakes`, `worstPeg` are the specification. Fills are made by placing orders and stay in the queue until consumed, so (2) is about every trade there ever is. Who may act for an account is C71")
claim("C104", "proved", ["Mango.Perp."+x for x in ["C104_lots", "C104_queue"]], "`added`, `tradesOf`, `madeLots`, `lotsOf` with `ordersOn`, `pending` are the specification; `added` looks only at orders being placed, which is all that adds events (the second theorem would fail otherwise). What an order that never rests trades is C18")
claim("C105", "proved", ["Mango.Perp."+x for x in ["C105_skipped", "C105_trades", "C105_resting", "C105_limits"]], "`Entry.args`, `isPegged`, `worst`, `accepts`, `withinPeg`, `mayTradeAt`, `refused`, `selfTrade` are the specification. Negative clocks panic (order.rs:53) and are not modelled")
claim("C106", "proved", ["Mango.Confirm."+x for x in ["C106_confirmed", "C106_expired", "C106_timeout", "C106_ends", "C106_sent"]], "`World` and `Truthful` are the specification of a truthful node. That a confirmed transaction succeeded does not follow (finding 75), nor that an expired one did not land (finding 76): examples beside the theorems")
claim("C107", "proved", ["Mango.Retry."+x for x in ["C107_counter", "C107_retry"]], "`streak` is the specification")
claim("C108", "proved", ["Mango.SwapInfo."+x for x in ["C108_latest", "C108_cost", "C108_round_trip", "C108_profit"]], "`Sets` is the specification of an effective update. Costs and profit are stated without the rounding of f64; nothing bounds the age of an estimate (finding 77)")
claim("C109", "proved", ["Mango.Budget."+x for x in ["C109_budget", "C109_total", "C109_prepared", "C109_fee", "C109_start"]], "`limits`, `prices`, `work`, `gathered`, `seen` and `weighted` are the specification. f64 is \u211a without rounding; that the fee feed answers truthfully is not modelled (finding 79)")
claim("C110", "proved", ["Mango.Refresh."+x for x in ["C110_only", "C110_ends", "C110_after", "C110_live", "C110_unknown"]], "the chain data itself is another crate: modelled by what it is told. C110_unknown states the limit: transactions not yet known to the node are not waited for (finding 80)")
