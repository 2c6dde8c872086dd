| Tcs/ | token conditional swaps: prices, amounts, trigger, start, create | state/token_conditional_swap.rs, token_conditional_swap_* instructions |
| Health/Formula, Health/FromState | the health formula as plain arithmetic (specification); where health inputs come from: banks (with scaled weights), perp markets, positions | health/cache.rs:108-115, 463-496, 1238-1430; state/bank.rs:1227-1265 |
| Liq/Phases, Liq/Bankruptcy | liquidation phases on the health cache; token bankruptcy | health/cache.rs:851-868, 923-1048; instructions/token_liq_bankruptcy.rs |
| Liq/Token | token liquidation | instructions/token_liq_with_token.rs |
| Health/Update | in-place updates of the health cache | health/cache.rs:851-918 |
| Serum/Model | spot orders: placing, settling, loan fees, remembered prices, force cancelling; the exchange is an environment | instructions/serum3_place_order.rs, serum3_settle_funds.rs, serum3_liq_force_cancel_orders.rs |
| Misc/Collateral | collateral fees | instructions/token_charge_collateral_fees.rs, health/cache.rs:757-798 |
| Liq/PerpBase | perp base and positive pnl liquidation | instructions/perp_liq_base_or_positive_pnl.rs |
| Wallet/Model | deposits, withdrawals, forced withdrawals | instructions/token_deposit.rs, token_withdraw.rs, token_force_withdraw.rs |
| Liq/ForceClose | closing borrows by force | instructions/token_force_close_borrows_with_token.rs |
| Config/Model, Spec, Steps | configuration of tokens, perp and spot markets | instructions/token_register.rs, token_register_trustless.rs, token_edit.rs, token_add_bank.rs, perp_edit_market.rs, serum3_edit_market.rs, state/bank.rs (from_existing_bank, verify) |
| Perp/OrderIx | perp orders as whole instructions | instructions/perp_place_order.rs |
| Client/Search, Model, SearchLemmas | maximum amounts of the client library | health/client.rs:13-492 and its search functions |
| Auth/Model | rights to accounts | state/mango_account.rs:315-375, instructions/account_edit.rs, account_toggle_freeze.rs, sequence_check.rs, account_close.rs, the checks in accounts_ix/*.rs |
| Settle/Model, Lookup | settling pnl and fees as instructions | instructions/perp_settle_pnl.rs, perp_settle_fees.rs, admin_perp_withdraw_fees.rs |
| Liq/PerpNegative | negative perp pnl and perp bankruptcy | instructions/perp_liq_negative_pnl_or_bankruptcy.rs |
| Perp/CancelIx | cancelling by force | instructions/perp_liq_force_cancel_orders.rs |
| Feeds/Fills | the fills feed | bin/service-mango-fills/src/fill_event_filter.rs |
| Feeds/Book | the order book feed | bin/service-mango-orderbook/src/orderbook_filter.rs, main.rs |
| Region/Model | health regions in transactions | instructions/health_region.rs, accounts_ix/health_region.rs |
| Client/Accounts | health accounts of the client library | lib/client/src/context.rs:28-112, 194-218, 420-600, 657-751 |
| Health/CheckIx | the HealthCheck instruction | instructions/health_check.rs |
| Config/Registry | listing and delisting of tokens and markets | accounts_ix and instructions of token_register, token_register_trustless, token_add_bank, token_deregister, perp_create_market, perp_close_market, serum3_register_market, serum3_deregister_market |
| Liq/Insurance | the insurance fund | instructions and accounts_ix of group_create, group_change_insurance_fund, group_withdraw_insurance_fund, group_close; transfers of token_liq_bankruptcy.rs, perp_liq_negative_pnl_or_bankruptcy.rs |
| Bots/Workers | workers and scans of the liquidator | bin/liquidator/src/tx_sender.rs, liquidation_state.rs:183-234, tcs_state.rs:46-63, main.rs:352-380, 607-616 |
| Client/Fetcher | caching account fetcher | lib/client/src/account_fetcher.rs:129-345 |
| Client/PerpPnl | search for settlement partners | lib/client/src/perp_pnl.rs:10-119 |
| Bots/Settler | settler: pairing and batches | bin/settler/src/settle.rs:146-150, 203-361 |
| Bots/Errors | error tracking of the bots | lib/client/src/error_tracking.rs:7-161 |
| Bots/Liquidate | liquidator: what to do next | bin/liquidator/src/liquidate.rs:19-34, 47-138, 140-193, 279-300, 339-357, 386-505, 537-566, 591-726, health/client.rs:14-20, health/cache.rs:934-1043 |
| Bots/Trigger | liquidator: conditional swaps, selection and size | bin/liquidator/src/trigger_tcs.rs:36-83, 379-663, 740-984 |
| Bots/TriggerRun | liquidator: the run over conditional swaps | bin/liquidator/src/trigger_tcs.rs:987-1119, 1145-1181 |
| Health/Equity | equity, ComputeAccountData, f64 division | state/equity.rs; instructions/compute_account_data.rs; i80f48.rs:130-132 |
| Bots/QuoteCache | liquidator: cache of swap quotes | bin/liquidator/src/trigger_tcs.rs:83-326 |

| Props/Float64 | round-to-nearest-even with 53 bits meets the assumptions made on roundings | IEEE 754 |
| Bots/Rebalance | liquidator: rebalancer | bin/liquidator/src/rebalance.rs:374-1040 |
| Bots/Keeper | keeper | bin/keeper/src/crank.rs:83-170, 240-335, 495-608 |
| Bots/TcsStart | settler: starting swaps | bin/settler/src/tcs_start.rs:58-142, 193-240 |
| Bots/Crank | crank service | bin/service-mango-crank/src/{mango_v4_perp_crank_sink.rs:27-107, openbook_crank_sink.rs:27-98, main.rs:83-122} |
| Misc/Allocator | the heap | allocator.rs |
| Bots/Pnl | pnl service | bin/service-mango-pnl/src/main.rs:50-239 |
| Bots/Persist | health monitoring service | bin/service-mango-health/src/processors/{persister.rs, health.rs} |
| Client/SlotPlan | making room for a spot market | lib/client/src/client.rs:934-1131 |
| Account/Close | closing an account | programs/mango-v4/src/instructions/account_close.rs, accounts_ix/account_close.rs |
| Perp/Entry | entry points placing perp orders | lib.rs:1019-1290, order.rs:50-64, order_type.rs:18-55 |
| Client/Confirm | sending, confirming, retrying | lib/client/src/confirm_transaction.rs:63-113, client.rs:239-266, 2567-2581; lib/services-mango-lib/src/retry_counter.rs |
| Bots/SwapInfo | liquidator's swap cost estimates | bin/liquidator/src/token_swap_info.rs |
| Client/Budget | compute budget, prepared instructions, priority fee | lib/client/src/client.rs, util.rs, priority_fees.rs |
| Client/Refresh | refreshing accounts after transactions | lib/client/src/chain_data_fetcher.rs |

