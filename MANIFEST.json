{
 "claims": [
  {
   "property": "C01",
   "status": "proved",
   "theorems": [
    "Mango.Bank.C01_deposit_withdraw_no_borrow",
    "Mango.Bank.C01_public"
   ],
   "note": "all banks with positive indexes (positivity is invariant: C02_totals), all amounts"
  },
  {
   "property": "C02",
   "status": "proved",
   "theorems": [
    "Mango.Bank.C02_totals",
    "Mango.Bank.C02_totals_single"
   ],
   "note": "all histories of all operations incl. several banks; loss socialization assumed smaller than deposits"
  },
  {
   "property": "C03",
   "status": "proved",
   "theorems": [
    "Mango.Bank.C03_deposit_rounding"
   ],
   "note": "any starting position, borrowed or not"
  },
  {
   "property": "C04",
   "status": "proved",
   "theorems": [
    "Mango.Bank.C04_withdraw_excess"
   ],
   "note": ""
  },
  {
   "property": "C05",
   "status": "proved",
   "theorems": [
    "Mango.Bank.C05_window_counter",
    "Mango.Bank.C05_check_sound",
    "Mango.Bank.C05_check_refuses",
    "Mango.Bank.C05_check_exact",
    "Mango.Bank.C05_withdraw_event",
    "Mango.Bank.C05_deposit_event"
   ],
   "note": "counter over every chronological event sequence; which event each call feeds; check soundness"
  },
  {
   "property": "C06",
   "status": "proved",
   "theorems": [
    "Mango.Bank.C06_check_sound",
    "Mango.Bank.C06_headroom_is_safe",
    "Mango.Bank.C06_check_exact",
    "Mango.Bank.C06_headroom_maximal"
   ],
   "note": ""
  },
  {
   "property": "C07",
   "status": "proved",
   "theorems": [
    "Mango.Bank.C07_transfer"
   ],
   "note": ""
  },
  {
   "property": "C08",
   "status": "proved",
   "theorems": [
    "Mango.Bank.C08_compute_index_mono",
    "Mango.Bank.C08_history_mono"
   ],
   "note": "deposit index only up to loss socialization, which lowers it by design (C12)"
  },
  {
   "property": "C09",
   "status": "proved",
   "theorems": [
    "Mango.Bank.C09_interest_balance",
    "Mango.Bank.C09_borrow_interest",
    "Mango.Bank.C09_passed_on"
   ],
   "note": "elapsed time at most one hour, the cap applied by the instruction"
  },
  {
   "property": "C10",
   "status": "proved",
   "theorems": [
    "Mango.Bank.C10_linear",
    "Mango.Bank.C10_rate_monotone",
    "Mango.Bank.C10_rate_bounded",
    "Mango.Bank.C10_rate_total",
    "Mango.Bank.C10_zero_kink_aborts"
   ],
   "note": "monotone for ordered rates, bounded, value at zero; computable except exactly when the first kink and the utilization are zero (accepted by verify, division by zero), for rates up to 2^30 and scaling up to 2^40"
  },
  {
   "property": "C100",
   "status": "proved",
   "theorems": [
    "Mango.Persist.C100_current",
    "Mango.Persist.C100_bounded",
    "Mango.Persist.C100_negative"
   ],
   "note": "`Current` and `Close` are the specification. Clock: the times of the events increase; the service's own event order is that of the channel. The deletion of old rows is not modelled"
  },
  {
   "property": "C101",
   "status": "proved",
   "theorems": [
    "Mango.SlotPlan.C101_iff",
    "Mango.SlotPlan.C101_opens",
    "Mango.SlotPlan.C101_harmless",
    "Mango.SlotPlan.C101_closes",
    "Mango.SlotPlan.C101_inactive"
   ],
   "note": "`Trade`, `missing`, `mis`, `free`, `closable` are the specification. The account on chain is the one the client planned with; use counts are below 65535"
  },
  {
   "property": "C102",
   "status": "proved",
   "theorems": [
    "Mango.AccountClose.C102_iff",
    "Mango.AccountClose.C102_can",
    "Mango.Perp.C102_orders"
   ],
   "note": "`Nothing`, `size`, `Allowed` and `booked`, `pending` are the specification. In (2) balances and orders are opaque: whether a position can be emptied is a matter of the bank and the markets. In (3) pending fills as a taker that cancel out remain, see C48"
  },
  {
   "property": "C103",
   "status": "proved",
   "theorems": [
    "Mango.Perp.C103_orders",
    "Mango.Perp.C103_trades"
   ],
   "note": "`PlacedIn`, `OnTerms`, `TakesOnTerms`, `MakesOnTerms`, `TradeFrom` with `booked`, `pending`, `tradesAt`, `acceptable`, `restsIn`, `neverTakes`, `worstPeg` are the specification. Fills are made by placing orders and stay in the queue until consumed, so (2) is about every trade there ever is. Who may act for an account is C71"
  },
  {
   "property": "C104",
   "status": "proved",
   "theorems": [
    "Mango.Perp.C104_lots",
    "Mango.Perp.C104_queue"
   ],
   "note": "`added`, `tradesOf`, `madeLots`, `lotsOf` with `ordersOn`, `pending` are the specification; `added` looks only at orders being placed, which is all that adds events (the second theorem would fail otherwise). What an order that never rests trades is C18"
  },
  {
   "property": "C105",
   "status": "proved",
   "theorems": [
    "Mango.Perp.C105_skipped",
    "Mango.Perp.C105_trades",
    "Mango.Perp.C105_resting",
    "Mango.Perp.C105_limits"
   ],
   "note": "`Entry.args`, `isPegged`, `worst`, `accepts`, `withinPeg`, `mayTradeAt`, `refused`, `selfTrade` are the specification. Negative clocks panic (order.rs:53) and are not modelled"
  },
  {
   "property": "C106",
   "status": "proved",
   "theorems": [
    "Mango.Confirm.C106_confirmed",
    "Mango.Confirm.C106_expired",
    "Mango.Confirm.C106_timeout",
    "Mango.Confirm.C106_ends",
    "Mango.Confirm.C106_sent"
   ],
   "note": "`World` and `Truthful` are the specification of a truthful node. That a confirmed transaction succeeded does not follow (finding 75), nor that an expired one did not land (finding 76): examples beside the theorems"
  },
  {
   "property": "C107",
   "status": "proved",
   "theorems": [
    "Mango.Retry.C107_counter",
    "Mango.Retry.C107_retry"
   ],
   "note": "`streak` is the specification"
  },
  {
   "property": "C108",
   "status": "proved",
   "theorems": [
    "Mango.SwapInfo.C108_latest",
    "Mango.SwapInfo.C108_cost",
    "Mango.SwapInfo.C108_round_trip",
    "Mango.SwapInfo.C108_profit"
   ],
   "note": "`Sets` is the specification of an effective update. Costs and profit are stated without the rounding of f64; nothing bounds the age of an estimate (finding 77)"
  },
  {
   "property": "C109",
   "status": "proved",
   "theorems": [
    "Mango.Budget.C109_budget",
    "Mango.Budget.C109_total",
    "Mango.Budget.C109_prepared",
    "Mango.Budget.C109_fee",
    "Mango.Budget.C109_start"
   ],
   "note": "`limits`, `prices`, `work`, `gathered`, `seen` and `weighted` are the specification. f64 is \u211a without rounding; that the fee feed answers truthfully is not modelled (finding 79)"
  },
  {
   "property": "C11",
   "status": "proved",
   "theorems": [
    "Mango.Bank.C11_between",
    "Mango.Bank.C11_linear",
    "Mango.Bank.C11_monotone",
    "Mango.Bank.C11_completion_invisible",
    "Mango.Bank.C11_configured"
   ],
   "note": ""
  },
  {
   "property": "C110",
   "status": "proved",
   "theorems": [
    "Mango.Refresh.C110_only",
    "Mango.Refresh.C110_ends",
    "Mango.Refresh.C110_after",
    "Mango.Refresh.C110_live",
    "Mango.Refresh.C110_unknown"
   ],
   "note": "the chain data itself is another crate: modelled by what it is told. C110_unknown states the limit: transactions not yet known to the node are not waited for (finding 80)"
  },
  {
   "property": "C12",
   "status": "proved",
   "theorems": [
    "Mango.Liquidation.C12_conditions",
    "Mango.Liquidation.C12_insurance",
    "Mango.Liquidation.C12_insurance_first",
    "Mango.Liquidation.C12_amounts_exact",
    "Mango.Liquidation.C12_socialize",
    "Mango.Liquidation.C12_ledger",
    "Mango.Bank.C12_single_bank",
    "Mango.Bank.C12_index_can_become_negative",
    "Mango.Bank.C12_break_leaves_bank_behind"
   ],
   "note": "any number of banks; the index stays positive for losses below all deposits. Two machine-checked counterexamples show what does not hold: the code does not check that bound, and banks after the one that completes the credit keep the old index"
  },
  {
   "property": "C13",
   "status": "proved",
   "theorems": [
    "Mango.Book.C13_order_tree_is_sorted_map",
    "Mango.Book.C13_spec_insert",
    "Mango.Book.C13_spec_remove"
   ],
   "note": "every history of insert/remove/expire/set-quantity on both trees, any capacity"
  },
  {
   "property": "C14",
   "status": "proved",
   "theorems": [
    "Mango.Book.C14_pool_partition",
    "Mango.Book.C14_out_of_space_iff"
   ],
   "note": ""
  },
  {
   "property": "C15",
   "status": "proved",
   "theorems": [
    "Mango.Book.C15_earliest_expiry_exact",
    "Mango.Book.C15_remove_one_expired",
    "Mango.Book.C15_no_tif_never"
   ],
   "note": ""
  },
  {
   "property": "C16",
   "status": "proved",
   "theorems": [
    "Mango.Book.C16_fixed_price_time_priority",
    "Mango.Book.C16_pegged_price_time_priority",
    "Mango.Book.C16_recover",
    "Mango.Book.C16_distinct"
   ],
   "note": ""
  },
  {
   "property": "C17",
   "status": "proved",
   "theorems": [
    "Mango.Book.C17_iteration_by_priority"
   ],
   "note": ""
  },
  {
   "property": "C18",
   "status": "proved",
   "theorems": [
    "Mango.Perp.C18_limits",
    "Mango.Perp.C18_lot_prices"
   ],
   "note": "all books, orders, oracle prices; non-vacuity in Props/MatchEx"
  },
  {
   "property": "C19",
   "status": "proved",
   "theorems": [
    "Mango.Perp.C19_buy",
    "Mango.Perp.C19_priority",
    "Mango.Perp.C19_sell_can_skip",
    "Mango.Perp.C19_complete"
   ],
   "note": "buy orders: unconditionally; sell orders: up to a binding quote limit, the exact exception is in C19_priority and a concrete run showing it is real is C19_sell_can_skip"
  },
  {
   "property": "C20",
   "status": "proved",
   "theorems": [
    "Mango.Perp.C20_post_only",
    "Mango.Perp.C20_no_cross",
    "Mango.Perp.C20_slide",
    "Mango.Perp.C20_sell_can_cross"
   ],
   "note": "plus: buy orders never rest crossing; plain limit sells can when the quote limit binds (C20_sell_can_cross)"
  },
  {
   "property": "C21",
   "status": "proved",
   "theorems": [
    "Mango.Perp.C21_makers",
    "Mango.Perp.C21_taker",
    "Mango.Perp.C21_posted_exact",
    "Mango.Perp.C21_not_posted",
    "Mango.Perp.setup_reachable"
   ],
   "note": "setup_reachable: the hypotheses of C18-C22, C27 hold in every reachable market state"
  },
  {
   "property": "C22",
   "status": "proved",
   "theorems": [
    "Mango.Perp.C22_no_self_fill",
    "Mango.Perp.C22_abort",
    "Mango.Perp.C27_order_fees"
   ],
   "note": ""
  },
  {
   "property": "C23",
   "status": "proved",
   "theorems": [
    "Mango.EventQueue.C23_event_queue_is_fifo",
    "Mango.EventQueue.C23_failures"
   ],
   "note": ""
  },
  {
   "property": "C24",
   "status": "proved",
   "theorems": [
    "Mango.Perp.C24_lot_counters",
    "Mango.Perp.C24_slots"
   ],
   "note": "all histories of place/cancel/consume/deactivate/force-close/liquidate/resize/close over any number of accounts; concrete run in Props/TradingEx"
  },
  {
   "property": "C25",
   "status": "proved",
   "theorems": [
    "Mango.Perp.C25_open_interest",
    "Mango.Perp.C25_quote_conserved",
    "Mango.Perp.C25_quote_place",
    "Mango.Perp.C25_quote_liq",
    "Mango.Perp.C25_quote_force_close",
    "Mango.Perp.C25_force_close_loses_funding"
   ],
   "note": "quote part: exact up to the f32 rounding of the maker fee (C25_quote_place); force close conserves only when funding was settled before, counterexample C25_force_close_loses_funding"
  },
  {
   "property": "C26",
   "status": "proved",
   "theorems": [
    "Mango.Perp.C26_late_events"
   ],
   "note": ""
  },
  {
   "property": "C27",
   "status": "proved",
   "theorems": [
    "Mango.Perp.C27_order_fees",
    "Mango.Perp.C27_consumption_fees"
   ],
   "note": ""
  },
  {
   "property": "C28",
   "status": "proved",
   "theorems": [
    "Mango.Perp.C28_settle_exact",
    "Mango.Perp.C28_update_funding",
    "Mango.Perp.C28_update_rate",
    "Mango.Perp.C28_zero_sum"
   ],
   "note": "all positions; zero-sum in every reachable market state; rate bounds and the hour cap of the update"
  },
  {
   "property": "C29",
   "status": "proved",
   "theorems": [
    "Mango.Perp.C29_window",
    "Mango.Perp.C29_available_limit",
    "Mango.Perp.C29_apply_limit",
    "Mango.Perp.C29_new_window",
    "Mango.Perp.C29_settle_pnl",
    "Mango.Perp.C29_settle_fees",
    "Mango.Perp.C29_limit_exact"
   ],
   "note": "all histories of settlements, funding, fees, trades and takeovers in a window; f64 position-value limit is an arbitrary non-negative function"
  },
  {
   "property": "C30",
   "status": "proved",
   "theorems": [
    "Mango.Perp.C30_settle_fee",
    "Mango.Perp.C30_exact"
   ],
   "note": ""
  },
  {
   "property": "C31",
   "status": "proved",
   "theorems": [
    "Mango.Perp.C31_socialize",
    "Mango.Perp.C31_nobody_pays"
   ],
   "note": "every reachable market state; with zero open interest nobody is charged (C31_nobody_pays)"
  },
  {
   "property": "C32",
   "status": "proved",
   "theorems": [
    "Mango.Slots.C32_unique",
    "Mango.Slots.C32_ensure_token",
    "Mango.Slots.C32_stable",
    "Mango.Slots.C32_activated",
    "Mango.Slots.C32_market_65535_takes_free_slot"
   ],
   "note": "all histories of slot operations; assumes market indexes are not 65535, which market creation does not enforce (C32_market_65535_takes_free_slot)"
  },
  {
   "property": "C33",
   "status": "proved",
   "theorems": [
    "Mango.Raw.C33_resize",
    "Mango.Raw.C33_account_expand",
    "Mango.Raw.C33_size_migration",
    "Mango.Raw.C33_create"
   ],
   "note": "byte-level model with overlapping memmoves; succeeds exactly when the active slots fit"
  },
  {
   "property": "C34",
   "status": "proved",
   "theorems": [
    "Mango.Buyback.C34_lifetime",
    "Mango.Buyback.C34_available_fees",
    "Mango.Buyback.C34_exchange",
    "Mango.Buyback.C34_as_much_as_possible"
   ],
   "note": "all histories with non-decreasing time, a fixed interval and no saturation of u64"
  },
  {
   "property": "C35",
   "status": "proved",
   "theorems": [
    "Mango.Account.C35_liquidatable_only_if_unhealthy",
    "Mango.Account.C35_flag_set",
    "Mango.Account.C35_flag_stays",
    "Mango.Account.C35_history",
    "Mango.Account.C35_check_exact",
    "Mango.Account.C35_may_act",
    "Mango.Account.C35_recovers_with_negative_liq_end_health"
   ],
   "note": "all histories; health values enter as parameters; C35_recovers_with_negative_liq_end_health: with the health ordering broken (C37_can_fail_with_shared_token) an account recovers with negative liquidation-end health"
  },
  {
   "property": "C36",
   "status": "proved",
   "theorems": [
    "Mango.Account.C36_post_check",
    "Mango.Account.C36_stays_nonnegative",
    "Mango.Account.C36_no_gradual_loss",
    "Mango.Account.C36_region",
    "Mango.Account.C36_exact"
   ],
   "note": "the loss below zero over any number of instructions at constant prices is under one native unit"
  },
  {
   "property": "C37",
   "status": "proved",
   "theorems": [
    "Mango.Health.C37_healths_ordered",
    "Mango.Health.C37_healths_ordered_with_orders",
    "Mango.Health.C37_can_fail_with_shared_token"
   ],
   "note": "exact without reserved spot funds, up to rounding with them when tokens are unshared or linear; the remaining case is refuted by a concrete cache"
  },
  {
   "property": "C38",
   "status": "proved",
   "theorems": [
    "Mango.Health.C38_health_is_assets_minus_liabs"
   ],
   "note": "up to one last-place unit per token for the multiplications"
  },
  {
   "property": "C39",
   "status": "proved",
   "theorems": [
    "Mango.Health.C39_taken",
    "Mango.Health.C39_given",
    "Mango.Health.C39_perp_max_settle"
   ],
   "note": ""
  },
  {
   "property": "C40",
   "status": "proved",
   "theorems": [
    "Mango.Health.C40_skipping_underestimates",
    "Mango.Health.C40_skipping_underestimates_exactly",
    "Mango.Health.C40_can_exceed_with_shared_token"
   ],
   "note": "exact without reserved spot funds; up to rounding with them under the stated restriction; the unrestricted claim of the doc comment is refuted by a concrete account"
  },
  {
   "property": "C41",
   "status": "proved",
   "theorems": [
    "Mango.Health.C41_worst_case",
    "Mango.Health.C41_hupnl_le_upnl",
    "Mango.Health.C41_at_most_each_side"
   ],
   "note": ""
  },
  {
   "property": "C42",
   "status": "proved",
   "theorems": [
    "Mango.Div30.C42_div30",
    "Mango.Div30.C42_smallest_aborts"
   ],
   "note": "all 128-bit operands; operands equal to the smallest value abort"
  },
  {
   "property": "C43",
   "status": "proved",
   "theorems": [
    "Mango.Stable.C43_update",
    "Mango.Stable.C43_exact",
    "Mango.Stable.C43_history",
    "Mango.Stable.C43_reset",
    "Mango.Stable.C43_delay_price",
    "Mango.Stable.C43_delay_range",
    "Mango.Stable.C43_delay_understated_after_gaps",
    "Mango.Stable.C43_zero_price_aborts"
   ],
   "note": "f64 operations are exact operations followed by any monotone rounding with bounded relative error (no overflow/underflow); times below 2^32"
  },
  {
   "property": "C44",
   "status": "proved",
   "theorems": [
    "Mango.Oracle.C44_bank_price",
    "Mango.Oracle.C44_reads",
    "Mango.Oracle.C44_pool",
    "Mango.Oracle.C44_good_primary",
    "Mango.Oracle.C44_good_price_used",
    "Mango.Oracle.C44_no_bad_price",
    "Mango.Oracle.C44_perp_price",
    "Mango.Oracle.C44_price_nonneg",
    "Mango.Oracle.C44_decimals",
    "Mango.Oracle.C44_zero_price_accepted",
    "Mango.Oracle.C44_pool_deviation_unscaled",
    "Mango.Oracle.C44_unreadable_primary_blocks_fallback",
    "Mango.Oracle.C44_stub_always_passes"
   ],
   "note": "prices are non-negative, not positive; pool prices use the unscaled deviation of the quote feed; account bytes abstracted"
  },
  {
   "property": "C45",
   "status": "proved",
   "theorems": [
    "Mango.Flash.C45_settled",
    "Mango.Flash.C45_mango_locked",
    "Mango.Flash.C45_loan",
    "Mango.Flash.C45_health",
    "Mango.Flash.C45_duplicate_bank_erases_debt"
   ],
   "note": "all transactions, including other programs calling mango; the accounting part assumes that End lists no health account twice, which the code does not enforce: C45_duplicate_bank_erases_debt"
  },
  {
   "property": "C46",
   "status": "proved",
   "theorems": [
    "Mango.Gate.C46_enable_needs_admin",
    "Mango.Gate.C46_stays_disabled",
    "Mango.Gate.C46_security_admin_can_disable",
    "Mango.Gate.C46_admin_can_set"
   ],
   "note": ""
  },
  {
   "property": "C47",
   "status": "proved",
   "theorems": [
    "Mango.Bank.C47_solvent",
    "Mango.Bank.C47_slack_pos"
   ],
   "note": "socialization only for single-bank tokens"
  },
  {
   "property": "C48",
   "status": "proved",
   "theorems": [
    "Mango.Perp.C48_positions_exist",
    "Mango.Perp.C48_deactivate_blocks_queue",
    "Mango.Perp.C48_shrink_blocks_queue"
   ],
   "note": "the two exceptions are real: concrete histories after which the event queue cannot be consumed"
  },
  {
   "property": "C50",
   "status": "proved",
   "theorems": [
    "Mango.Perp.C50_market",
    "Mango.Perp.C50_settle_pnl",
    "Mango.Perp.C50_settle_fees",
    "Mango.Perp.C50_bankruptcy"
   ],
   "note": "every reachable market state; each settlement step leads to a reachable state again"
  },
  {
   "property": "C51",
   "status": "proved",
   "theorems": [
    "Mango.Health.C51_orders_valued_conservatively"
   ],
   "note": ""
  },
  {
   "property": "C52",
   "status": "proved",
   "theorems": [
    "Mango.Oracle.C52_fixed_order",
    "Mango.Oracle.C52_fixed_complete",
    "Mango.Oracle.C52_optional_banks",
    "Mango.Oracle.C52_scanning",
    "Mango.Oracle.C52_scan_complete",
    "Mango.Oracle.C52_two_banks"
   ],
   "note": ""
  },
  {
   "property": "C53",
   "status": "proved",
   "theorems": [
    "Mango.Slots.C53_counts",
    "Mango.Slots.C53_needed_position_stays",
    "Mango.Slots.C53_can_close"
   ],
   "note": "all histories of slot operations"
  },
  {
   "property": "C54",
   "status": "proved",
   "theorems": [
    "Mango.Swap.C54_amounts",
    "Mango.Swap.C54_trigger_price",
    "Mango.Swap.C54_premium_bounds",
    "Mango.Swap.C54_auction_rises",
    "Mango.Swap.C54_fees_never_underflow",
    "Mango.Swap.C54_trigger_limits",
    "Mango.Swap.C54_trigger_ledger",
    "Mango.Swap.C54_trigger_conserves",
    "Mango.Swap.C54_trigger_health",
    "Mango.Swap.C54_trigger_recovers",
    "Mango.Swap.C54_trigger_done",
    "Mango.Swap.C54_life",
    "Mango.Swap.C54_start",
    "Mango.Swap.C54_reduce_only_stuck"
   ],
   "note": "f64 operations are exact operations followed by any monotone idempotent rounding; health is a function of the environment (C36 for the check itself)"
  },
  {
   "property": "C55",
   "status": "proved",
   "theorems": [
    "Mango.Health.C55_account_health",
    "Mango.Health.C55_health_formula",
    "Mango.Health.C55_scaled_weights",
    "Mango.Health.C55_ordered"
   ],
   "note": "f64 steps of the weight scaling are exact operations followed by any monotone rounding; token positions of the account are distinct (C32)"
  },
  {
   "property": "C56",
   "status": "proved",
   "theorems": [
    "Mango.Liquidation.C56_conditions",
    "Mango.Liquidation.C56_amounts",
    "Mango.Liquidation.C56_amounts_exact",
    "Mango.Liquidation.C56_ledger",
    "Mango.Liquidation.C56_no_overliquidation",
    "Mango.Liquidation.C56_stops_at_zero",
    "Mango.Liquidation.C56_improves",
    "Mango.Liquidation.C56_payment_can_exceed_balance"
   ],
   "note": "the liqee's health cache shows the weights and prices of the banks (C55); the payment can exceed the asset balance by rounding, bounded in C56_amounts"
  },
  {
   "property": "C57",
   "status": "proved",
   "theorems": [
    "Mango.Health.C57_health",
    "Mango.Health.C57_tracking",
    "Mango.Health.C57_init_at_least",
    "Mango.Health.C57_post_check_more_lenient",
    "Mango.Health.C57_skipping"
   ],
   "note": "updates of the three kinds the instructions use, with bank configuration, oracle prices and indexes unchanged between building the cache and the check"
  },
  {
   "property": "C58",
   "status": "proved",
   "theorems": [
    "Mango.Serum.C58_charged_once",
    "Mango.Serum.C58_place",
    "Mango.Serum.C58_settle",
    "Mango.Serum.C58_no_trade_no_fee"
   ],
   "note": "the spot exchange is an arbitrary environment: it may return any open orders account and vault amounts; case: exHistory"
  },
  {
   "property": "C59",
   "status": "proved",
   "theorems": [
    "Mango.Serum.C59_extremes",
    "Mango.Serum.C59_attained",
    "Mango.Serum.C59_health",
    "Mango.Serum.C59_potential",
    "Mango.Serum.C59_price"
   ],
   "note": "the exchange reports correctly whether the account has orders on a side; f64 steps are exact operations followed by a monotone rounding; case: exTrace"
  },
  {
   "property": "C60",
   "status": "proved",
   "theorems": [
    "Mango.Serum.C60_potential",
    "Mango.Serum.C60_two_banks_drift"
   ],
   "note": "tokens with one bank; with several banks for a token the counters drift (C60_two_banks_drift)"
  },
  {
   "property": "C61",
   "status": "proved",
   "theorems": [
    "Mango.Serum.C61_health",
    "Mango.Serum.C61_recovers",
    "Mango.Serum.C61_reduce_only",
    "Mango.Serum.C61_limits",
    "Mango.Serum.C61_band",
    "Mango.Serum.C61_cancel",
    "Mango.Serum.forceCancel_misses_fee"
   ],
   "note": "inside health regions the health part is checked at the end of the region (C36); cases: exPlace_hyps, exReduceOnly; forceCancel_misses_fee: the end of a liquidation by cancelling overlooks the fee it charges"
  },
  {
   "property": "C62",
   "status": "proved",
   "theorems": [
    "Mango.Collateral.C62_time",
    "Mango.Collateral.C62_charge",
    "Mango.Collateral.C62_bounds",
    "Mango.Collateral.C62_nothing",
    "Mango.Collateral.C62_ledger",
    "Mango.Collateral.C62_wrong_settle_price",
    "Mango.Collateral.C62_settle_index_aborts"
   ],
   "note": "the liabilities compared with 100 dollars are those the code computes, which look up the settle price of perps at the wrong place (C62_wrong_settle_price); cases: exCharged, exTimes"
  },
  {
   "property": "C63",
   "status": "proved",
   "theorems": [
    "Mango.Liquidation.C63_conditions",
    "Mango.Liquidation.C63_trade",
    "Mango.Liquidation.C63_takeover",
    "Mango.Liquidation.C63_not_more_than_needed",
    "Mango.Liquidation.C63_enough",
    "Mango.Liquidation.C63_overliquidation"
   ],
   "note": "not more than needed: for markets with init_overall_asset_weight <= 1 - positive_pnl_liquidation_fee or without pnl takeover; else it fails (C63_overliquidation); cases: exPerp_short, exPerp_long, exPerp_hyps, exPerp_reflects"
  },
  {
   "property": "C64",
   "status": "proved",
   "theorems": [
    "Mango.Wallet.C64_withdraw",
    "Mango.Wallet.C64_no_loan",
    "Mango.Wallet.C64_loan",
    "Mango.Wallet.C64_withdraw_all",
    "Mango.Wallet.C64_delegate",
    "Mango.Wallet.C64_withdraw_health",
    "Mango.Wallet.C64_withdraw_recovers",
    "Mango.Wallet.C64_deposit",
    "Mango.Wallet.C64_deposit_limits",
    "Mango.Wallet.C64_deposit_recovers",
    "Mango.Wallet.C64_deposit_health",
    "Mango.Wallet.C64_force_withdraw",
    "Mango.Wallet.C64_deposit_can_lower_health"
   ],
   "note": "the part on deposits and health needs that no two markets reserve the same token, else it fails (C64_deposit_can_lower_health); the group's limit is checked on the assets the code computes; cases: Props/WalletEx"
  },
  {
   "property": "C65",
   "status": "proved",
   "theorems": [
    "Mango.Liquidation.C65_conditions",
    "Mango.Liquidation.C65_amounts",
    "Mango.Liquidation.C65_ledger",
    "Mango.Liquidation.C65_health",
    "Mango.Liquidation.C65_maint_health_can_fall",
    "Mango.Liquidation.C65_health_can_fall"
   ],
   "note": "the health part holds for liquidation-end health under the stated conditions; maintenance health can fall (C65_maint_health_can_fall), and liquidation-end health if the token also counts elsewhere (C65_health_can_fall); cases: Props/ForceCloseEx"
  },
  {
   "property": "C66",
   "status": "proved",
   "theorems": [
    "Mango.Config.C66_valid",
    "Mango.Config.C66_edit",
    "Mango.Config.C66_security",
    "Mango.Config.C66_authority",
    "Mango.Config.C66_banks",
    "Mango.Config.C66_abort",
    "Mango.Config.C66_perp",
    "Mango.Config.C66_spot",
    "Mango.Config.C66_fallback_differs",
    "Mango.Config.C66_shift_order",
    "Mango.Config.C66_shift_unliquidatable",
    "Mango.Config.C66_nan",
    "Mango.Config.C66_unchecked",
    "Mango.Config.C66_perp_unchecked"
   ],
   "note": "banks of a token can disagree on the fallback oracle (C66_fallback_differs); bounds of float settings are also passed by NaN (C66_nan); the order of weights holds for the stored weights, not during a shift (C66_shift_order); cases: Props/ConfigListing, Props/ConfigMarkets"
  },
  {
   "property": "C67",
   "status": "proved",
   "theorems": [
    "Mango.Config.C67_listing",
    "Mango.Config.C67_complete",
    "Mango.Config.C67_quota",
    "Mango.Config.C67_spot"
   ],
   "note": "weeks are counted from the epoch; cases: Props/ConfigListing"
  },
  {
   "property": "C68",
   "status": "proved",
   "theorems": [
    "Mango.PerpOrder.C68_is_step",
    "Mango.PerpOrder.C68_only_owner",
    "Mango.PerpOrder.C68_reduce_only",
    "Mango.PerpOrder.C68_market_reduce_only",
    "Mango.PerpOrder.C68_exposure",
    "Mango.PerpOrder.C68_no_new",
    "Mango.PerpOrder.C68_health"
   ],
   "note": "cases: Props/PerpOrderEx"
  },
  {
   "property": "C69",
   "status": "proved",
   "theorems": [
    "Mango.PerpForce.C69_force_close",
    "Mango.PerpForce.C69_no_flip",
    "Mango.PerpForce.C69_pnl",
    "Mango.PerpForce.C69_health",
    "Mango.PerpForce.C69_flat_becomes_short"
   ],
   "note": "only settled lots are looked at: with fills pending a flat account can become short (C69_flat_becomes_short); funding is not settled (C25_force_close_loses_funding); cases: Props/PerpOrderEx"
  },
  {
   "property": "C70",
   "status": "proved",
   "theorems": [
    "Mango.Client.C70_find_maximum_ends",
    "Mango.Client.C70_find_maximum_hill",
    "Mango.Client.C70_binary_search",
    "Mango.Client.C70_binary_search_total",
    "Mango.Client.C70_scan_right",
    "Mango.Client.C70_max_borrow",
    "Mango.Client.C70_max_swap",
    "Mango.Client.C70_swap_limits",
    "Mango.Client.C70_borrow_limit",
    "Mango.Client.C70_max_swap_with_limits",
    "Mango.Client.C70_max_perp",
    "Mango.Client.C70_is_liquidatable",
    "Mango.Client.C70_swap_preview",
    "Mango.Client.C70_borrow_preview",
    "Mango.Client.C70_trade_preview",
    "Mango.Client.C70_low_price_fails",
    "Mango.Client.C70_borrow_fee_left_out",
    "Mango.Client.C70_swap_limit_exceeded"
   ],
   "note": "the ratios are those of the cache the library computes, which leaves out loan fees (C70_borrow_fee_left_out); for tokens with a low native price the maximum borrow fails (C70_low_price_fails); the limits of swaps value net borrows at the oracle price, the program at the larger of oracle and stable price (C70_swap_limit_exceeded); cases: Props/ClientEx"
  },
  {
   "property": "C71",
   "status": "proved",
   "theorems": [
    "Mango.Auth.C71_rights",
    "Mango.Auth.C71_owner_gives",
    "Mango.Auth.C71_admin",
    "Mango.Auth.C71_freeze",
    "Mango.Auth.C71_owner_can_edit",
    "Mango.Auth.C71_sequence",
    "Mango.Auth.C71_frozen_still",
    "Mango.Auth.C71_temporary_alone"
   ],
   "note": "two cancel instructions and the receiving account of fee buybacks are not stopped by freezing (C71_frozen_still); signatures are trusted; cases: Props/AuthorityEx"
  },
  {
   "property": "C72",
   "status": "proved",
   "theorems": [
    "Mango.Settlement.C72_settle_pnl",
    "Mango.Settlement.C72_tokens",
    "Mango.Settlement.C72_profit_health",
    "Mango.Settlement.C72_loss_health",
    "Mango.Settlement.C72_settle_health",
    "Mango.Settlement.C72_settle_fees",
    "Mango.Settlement.C72_fee_tokens",
    "Mango.Settlement.C72_fee_health",
    "Mango.Settlement.C72_withdraw_fees",
    "Mango.Settlement.C72_fee_history",
    "Mango.Settlement.C72_recorded",
    "Mango.Settlement.C72_amount_exact",
    "Mango.Settlement.C72_limit_tight",
    "Mango.Settlement.C72_fee_amount_exact",
    "Mango.Settlement.pending_settlement_lowers_health"
   ],
   "note": "the health parts assume positions in the settle token that stay open (they are in use by the perp position) and no reserved spot orders; with fills pending the payer's health can fall (pending_settlement_lowers_health); cases: Props/SettlementEx"
  },
  {
   "property": "C73",
   "status": "proved",
   "theorems": [
    "Mango.Liquidation.C73_conditions",
    "Mango.Liquidation.C73_moves",
    "Mango.Liquidation.C73_amounts",
    "Mango.Liquidation.C73_health",
    "Mango.Liquidation.C73_solvent_paid"
   ],
   "note": "health parts assume the cache was made from the accounts (C55) with ordered weights; solvent accounts can be paid, see C73_solvent_paid; cases: Props/PerpNegEx"
  },
  {
   "property": "C74",
   "status": "proved",
   "theorems": [
    "Mango.PerpCancel.C74_cancel_by_id",
    "Mango.PerpCancel.C74_cancel_by_client",
    "Mango.PerpCancel.C74_cancel_missing",
    "Mango.PerpCancel.C74_cancel_all",
    "Mango.PerpCancel.C74_cancel_all_clears",
    "Mango.PerpCancel.C74_value",
    "Mango.PerpCancel.C74_health",
    "Mango.PerpCancel.C74_force_cancel",
    "Mango.PerpCancel.C74_limit_zero"
   ],
   "note": "the lot counters must fit i64 (LotsFit); health parts assume ordered weights, non-negative prices and no funds in open spot orders; with limit 0 the call panics if there is an order (C74_limit_zero); cases: Props/CancelEx"
  },
  {
   "property": "C75",
   "status": "proved",
   "theorems": [
    "Mango.Perp.C75_own_side",
    "Mango.Perp.C75_fresh_id"
   ],
   "note": "cases: Props/PostingEx"
  },
  {
   "property": "C76",
   "status": "proved",
   "theorems": [
    "Mango.Perp.C76_quantity",
    "Mango.Perp.C76_best",
    "Mango.Perp.C76_impact",
    "Mango.Perp.C76_amount",
    "Mango.Perp.C76_matched_none",
    "Mango.Perp.C76_matched_quantity",
    "Mango.Perp.C76_order"
   ],
   "note": "quantity for an amount: at most, not at least as the comment in the code says (finding 36); cases: Props/DepthEx"
  },
  {
   "property": "C77",
   "status": "proved",
   "theorems": [
    "Mango.Feeds.C77_exactly_once",
    "Mango.Feeds.C77_in_order",
    "Mango.Feeds.C77_head",
    "Mango.Feeds.C77_checkpoint",
    "Mango.Feeds.C77_crash",
    "Mango.Feeds.C77_full_queue_head",
    "Mango.Feeds.C77_market"
   ],
   "note": "versions are Chain histories of the queue, forks at most the ring's capacity deep; the service stops at C77_crash, so the counting statements are for runs that are alive; cases: fxA, fxB, fxC, fxSeen"
  },
  {
   "property": "C78",
   "status": "proved",
   "theorems": [
    "Mango.BookFeed.C78_update",
    "Mango.BookFeed.C78_checkpoint",
    "Mango.BookFeed.C78_subscriber",
    "Mango.BookFeed.C78_subscriber_now",
    "Mango.BookFeed.C78_current",
    "Mango.BookFeed.C78_asks_stale",
    "Mango.BookFeed.C78_orders",
    "Mango.BookFeed.C78_orders_missing",
    "Mango.BookFeed.C78_book",
    "Mango.BookFeed.C78_market_sorts",
    "Mango.BookFeed.C78_level"
   ],
   "note": "prices and quantities are rationals, sums are rounded by an arbitrary function; the conversion of lots is monotone; the asks do not follow the oracle (C78_asks_stale) and updates of orders are missing (C78_orders_missing); cases: bxOps, bx_sorts"
  },
  {
   "property": "C79",
   "status": "proved",
   "theorems": [
    "Mango.Region.C79_blocks",
    "Mango.Region.C79_none_left",
    "Mango.Region.C79_healthy",
    "Mango.Region.C79_begin_fails",
    "Mango.Region.C79_begin_iff"
   ],
   "note": "other instructions of mango are arbitrary functions that do not touch the region fields (Tame) and, outside regions, keep healthy accounts healthy (Respects: their own checks, C36, C61, C68); the runtime's rule that mango is not entered again while running is built in; cases: rx_tame and the examples beside it"
  },
  {
   "property": "C80",
   "status": "proved",
   "theorems": [
    "Mango.ClientAccounts.C80_fixed",
    "Mango.ClientAccounts.C80_scan",
    "Mango.ClientAccounts.C80_two",
    "Mango.ClientAccounts.C80_known",
    "Mango.ClientAccounts.C80_known_only",
    "Mango.ClientAccounts.C80_fallback_is_oracle",
    "Mango.ClientAccounts.C80_quote_is_oracle",
    "Mango.ClientAccounts.C80_shared_oracle",
    "Mango.ClientAccounts.C80_pool_oracle"
   ],
   "note": "prices hold under FixedEnough or ScanEnough; that the exceptions are real is shown by the last four theorems; open orders accounts have distinct addresses; cases: cx_reach, cx_ctx and the examples beside them"
  },
  {
   "property": "C81",
   "status": "proved",
   "theorems": [
    "Mango.Health.C81_health",
    "Mango.Health.C81_health_reserved",
    "Mango.Health.C81_ratio",
    "Mango.Health.C81_ratio_zero",
    "Mango.Health.C81_needed",
    "Mango.Health.C81_passes"
   ],
   "note": "banks are Ordinary (verified, ordered weights, non-negative prices and index); ratio part without funds reserved in spot orders; case: chkState"
  },
  {
   "property": "C82",
   "status": "proved",
   "theorems": [
    "Mango.Registry.C82_tokens",
    "Mango.Registry.C82_bank_listed",
    "Mango.Registry.C82_listed_exists",
    "Mango.Registry.C82_perps",
    "Mango.Registry.C82_spots",
    "Mango.Registry.C82_permanent",
    "Mango.Registry.C82_spot_tokens",
    "Mango.Registry.C82_register_iff"
   ],
   "note": "accounts are found at program-derived addresses, taken as injective in their seeds; case: ex_serious and the examples beside it"
  },
  {
   "property": "C83",
   "status": "proved",
   "theorems": [
    "Mango.Insurance.C83_vault",
    "Mango.Insurance.C83_withdraw",
    "Mango.Insurance.C83_change",
    "Mango.Insurance.C83_close",
    "Mango.Insurance.C83_token",
    "Mango.Insurance.C83_perp",
    "Mango.Insurance.C83_ledger"
   ],
   "note": "the amounts of a bankruptcy are C12 and C73; transfers the group signs for bank vaults or that others sign do not start at an insurance vault (program-derived addresses); cases: exHist and the examples beside it"
  },
  {
   "property": "C84",
   "status": "proved",
   "theorems": [
    "Mango.Workers.C84_exclusive",
    "Mango.Workers.C84_listed",
    "Mango.Workers.C84_pull",
    "Mango.Workers.C84_priority",
    "Mango.Workers.C84_signal",
    "Mango.Workers.C84_quiet",
    "Mango.Workers.C84_work",
    "Mango.Workers.C84_once",
    "Mango.Workers.C84_same_swap_twice",
    "Mango.Workers.C84_scan",
    "Mango.Workers.C84_update_during_scan"
   ],
   "note": "sections under the lock are atomic, executing a task is open; scans are complete only if accounts do not change during them (C84_update_during_scan); cases: exOps and the examples beside it"
  },
  {
   "property": "C85",
   "status": "proved",
   "theorems": [
    "Mango.Fetcher.C85_one",
    "Mango.Fetcher.C85_one_request",
    "Mango.Fetcher.C85_cached",
    "Mango.Fetcher.C85_retry",
    "Mango.Fetcher.C85_program",
    "Mango.Fetcher.C85_many",
    "Mango.Fetcher.C85_fresh",
    "Mango.Fetcher.C85_stale_after_clear",
    "Mango.Fetcher.C85_many_drops_cached"
   ],
   "note": "the underlying fetcher answers with data of the accounts asked for, read between start and answer (Fits); the hash of a list of keys is injective; cases: the runs in C85_stale_after_clear and C85_many_drops_cached"
  },
  {
   "property": "C86",
   "status": "proved",
   "theorems": [
    "Mango.PerpPnl.C86_losses",
    "Mango.PerpPnl.C86_gains",
    "Mango.PerpPnl.C86_returns_nothing_to_settle"
   ],
   "note": "`canSettle` is the specification of what can be settled; case: exCands, where accounts with smaller losses overtake larger ones"
  },
  {
   "property": "C87",
   "status": "proved",
   "theorems": [
    "Mango.Settler.C87_greedy",
    "Mango.Settler.C87_within",
    "Mango.Settler.C87_ends",
    "Mango.Settler.C87_count",
    "Mango.Settler.C87_exhaustive",
    "Mango.Settler.C87_settleable",
    "Mango.Settler.C87_batches",
    "Mango.Settler.C87_batches_fail",
    "Mango.Settler.C87_blocked_at_threshold",
    "Mango.Settler.C87_blocked_low_health",
    "Mango.Settler.C87_oversized_sent"
   ],
   "note": "account keys are distinct; `PeekOk` says that the priority queue returns a largest element, peekFirst_ok shows one that does; cases: the runs with exMarket and exLimits"
  },
  {
   "property": "C88",
   "status": "proved",
   "theorems": [
    "Mango.Errors.C88_state",
    "Mango.Errors.C88_skip",
    "Mango.Errors.C88_complete",
    "Mango.Errors.C88_one_more_error"
   ],
   "note": "C88_complete needs times that do not go back; cases: exTracking with exHistory"
  },
  {
   "property": "C89",
   "status": "proved",
   "theorems": [
    "Mango.Liquidator.C89_phases",
    "Mango.Liquidator.C89_when",
    "Mango.Liquidator.C89_possible",
    "Mango.Liquidator.C89_never_gives_up",
    "Mango.Liquidator.C89_wait",
    "Mango.Liquidator.C89_restrictions",
    "Mango.Liquidator.C89_largest",
    "Mango.Liquidator.C89_forbidden_shift",
    "Mango.Liquidator.C89_forbidden_perp",
    "Mango.Liquidator.C89_lot_sizes"
   ],
   "note": "`Sane` says that open orders accounts without funds have none of any kind, prices are positive and asset weights not negative; C89_possible needs that no held token is forbidden (see the finding). Cases: exSane, exFair, exUnrestricted and the runs of exRun, one for every outcome"
  },
  {
   "property": "C90",
   "status": "proved",
   "theorems": [
    "Mango.Trigger.C90_limits",
    "Mango.Trigger.C90_total",
    "Mango.Trigger.C90_borrow_room",
    "Mango.Trigger.C90_borrow_room_tight",
    "Mango.Trigger.C90_interesting",
    "Mango.Trigger.C90_owner",
    "Mango.Trigger.C90_mode",
    "Mango.Trigger.C90_listed",
    "Mango.Trigger.C90_size",
    "Mango.Trigger.C90_volume",
    "Mango.Trigger.C90_sold_token_ignored",
    "Mango.Trigger.C90_forbidden_sold",
    "Mango.Trigger.C90_stable_price_ignored",
    "Mango.Trigger.C90_negative_net_borrows",
    "Mango.Trigger.C90_expired_waits"
   ],
   "note": "SellFits and BuyFits are the sets of amounts that fit; the amounts are their greatest elements. C90_sold_token_ignored, C90_forbidden_sold, C90_stable_price_ignored, C90_negative_net_borrows and C90_expired_waits show the exceptions. The health search that gives the unlimited amount is an input (C75 to C77). Cases: exView with the limits of exBank"
  },
  {
   "property": "C91",
   "status": "proved",
   "theorems": [
    "Mango.TriggerRun.C91_no_panic",
    "Mango.TriggerRun.C91_progress",
    "Mango.TriggerRun.C91_terminates",
    "Mango.TriggerRun.C91_once",
    "Mango.TriggerRun.C91_budget",
    "Mango.TriggerRun.C91_eager",
    "Mango.TriggerRun.C91_complete",
    "Mango.TriggerRun.C91_positions",
    "Mango.TriggerRun.C91_sent"
   ],
   "note": "`Found` asks for a list that is not empty (checked by the caller, tcs_state.rs:180) and volumes for which volume plus budget fits in u64; that a preparation's volume is at most the budget is C90_size. Cases: exReach runs through all kinds of iterations, exLiqor has too few slots"
  },
  {
   "property": "C92",
   "status": "proved",
   "theorems": [
    "Mango.Health.Worth.C92_health_le_worth",
    "Mango.Health.Worth.C92_healthy_is_solvent",
    "Mango.Health.Worth.C92_no_orders",
    "Mango.Health.Worth.C92_equity",
    "Mango.Health.Worth.C92_equity_total",
    "Mango.Health.Worth.C92_account_data",
    "Mango.Health.Worth.C92_weights_not_checked"
   ],
   "note": "Weights on the right side of 1 and positive prices are hypotheses (`BankOk`, `PerpOk`). The f64 division of reserved funds is modelled (`f64Div`) and proved to meet what the other health claims ask of it (f64Div_ok, f64Div_near). Case: exWorth, exData (worth 838, healths -69 and 572.69, equity 335 without perps)"
  },
  {
   "property": "C93",
   "status": "proved",
   "theorems": [
    "Mango.QuoteCache.C93_lowest",
    "Mango.QuoteCache.C93_first_alone",
    "Mango.QuoteCache.C93_early_out",
    "Mango.QuoteCache.C93_result",
    "Mango.QuoteCache.C93_one_request",
    "Mango.QuoteCache.C93_progress",
    "Mango.QuoteCache.C93_terminates",
    "Mango.QuoteCache.C93_route_early_out",
    "Mango.QuoteCache.C93_route",
    "Mango.QuoteCache.C93_route_error",
    "Mango.QuoteCache.C93_nan"
   ],
   "note": "A call is cut at its awaits; prices are f64 (finite, infinity or NaN), products and quotients rounded by an arbitrary `rnd`. Cases: exRun has a refused first call, a second call that asks itself and lowers the price, a third turned away by the cache and a failed request"
  },
  {
   "property": "C94",
   "status": "proved",
   "theorems": [
    "Mango.Rebalance.C94_perp_reduce",
    "Mango.Rebalance.C94_perp_rest",
    "Mango.Rebalance.C94_dust",
    "Mango.Rebalance.C94_swap",
    "Mango.Rebalance.C94_limit",
    "Mango.Rebalance.C94_route",
    "Mango.Rebalance.C94_no_route",
    "Mango.Rebalance.C94_route_dropped",
    "Mango.Rebalance.C94_close_then_settle",
    "Mango.Rebalance.C94_blocked"
   ],
   "note": "Sizes, sides, prices and decisions are modelled, requests and transactions are not; `moved`, `worst`, `ownOpen` and `val` are the specification. Each case is shown with numbers at the end of Props/Rebalance"
  },
  {
   "property": "C95",
   "status": "proved",
   "theorems": [
    "Mango.Keeper.C95_accounts",
    "Mango.Keeper.C95_between",
    "Mango.Keeper.C95_consumes",
    "Mango.Keeper.C95_selects",
    "Mango.Keeper.C95_batches",
    "Mango.Keeper.C95_within",
    "Mango.Keeper.C95_full",
    "Mango.Keeper.C95_empty_transaction",
    "Mango.Keeper.C95_tokens"
   ],
   "note": "The instruction is the one of the model of the market (Perp/System) and its success is a hypothesis: it can fail as C83 says. `C95_between` gives the `j` and `new` of `C95_consumes` for any instructions; `names`, `pending` and `Full` are the specification. Each case is shown with numbers at the end of Props/Keeper"
  },
  {
   "property": "C96",
   "status": "proved",
   "theorems": [
    "Mango.TcsStart.C96_finds",
    "Mango.TcsStart.C96_right",
    "Mango.TcsStart.C96_considered",
    "Mango.TcsStart.C96_error_kept",
    "Mango.TcsStart.C96_groups",
    "Mango.TcsStart.C96_pick",
    "Mango.TcsStart.C96_withdrawn"
   ],
   "note": "`start`, `incentive` and `checkedTransferWithFee` are the program's (Tcs/Model, Bank/Model). The bot's account is assumed not to owe the sell token, and for (1) the borrow index to be at most 2^47. `newTokens` is the specification of (4). Both sides are shown on numbers at the end of Props/TcsStart"
  },
  {
   "property": "C97",
   "status": "proved",
   "theorems": [
    "Mango.Crank.C97_perp",
    "Mango.Crank.C97_consumes",
    "Mango.Crank.C97_ring",
    "Mango.Crank.C97_spot",
    "Mango.Crank.C97_panics",
    "Mango.Crank.C97_flipped",
    "Mango.Crank.C97_pairs",
    "Mango.Crank.C97_pairs_shifted"
   ],
   "note": "`Reachable`, `pending`, `Keeper.names` as in C95; `spotPending` is the specification of a queue with room for `cap` events. The DEX's queue (`push_back`, `pop_front`) is modelled after the serum_dex crate, whose source is not in /repo"
  },
  {
   "property": "C98",
   "status": "proved",
   "theorems": [
    "Mango.Alloc.C98_alloc",
    "Mango.Alloc.C98_disjoint",
    "Mango.Alloc.C98_succeeds",
    "Mango.Alloc.C98_used"
   ],
   "note": "`Run` is the specification of what a program does; memory is bytes, with the allocator's word in its first eight; the mask arithmetic is on bits"
  },
  {
   "property": "C99",
   "status": "proved",
   "theorems": [
    "Mango.PnlService.C99_values",
    "Mango.PnlService.C99_ranking",
    "Mango.PnlService.C99_panics",
    "Mango.PnlService.C99_nothing"
   ],
   "note": "`before` is the specification of the orders. The size of the structure in memory is computed from its fields (the compiler may only add padding; up to 823 bytes the argument is the same). `maxSettle` is `perp_max_settle` of the health cache (C29, C72)"
  }
 ]
}