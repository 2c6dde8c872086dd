# Formal model of mango-v4 in Lean 4

The model covers the on-chain program in `/repo/programs/mango-v4/src`. It consists of functions that follow the code
function by function, a layer of state machines that run them in every order, and theorems about all runs.
This file: trusted base, what is and is not modelled, conventions, findings, and per property the plan and its state.

## Trusted base

* Lean 4.33.0's kernel, and the standard axioms `propext`, `Classical.choice`, `Quot.sound` (at most these three; some
  theorems use fewer). No axioms of our own, no compiled-code decision procedures. Concrete examples are checked by the
  kernel (`decide +kernel`, which lets the kernel evaluate; it does not use compiled code).
* The fidelity of the model to the source. Every definition cites the file and lines it models and says where it
  simplifies. The code is not run here.
* The semantics of the `fixed` crate (blockworks fork, v1.11.0) for `I80F48`, which is not in the sandbox: 128-bit two's
  complement bits with 48 fractional bits; `+ - * /` panic on overflow (the release profile has
  `overflow-checks = true`), `*` rounds toward minus infinity (as asserted by the repo's own test in `i80f48.rs`), `/`
  truncates toward zero.
* A panic or an error aborts the Solana transaction and rolls back all effects. So each operation is a function into
  `Res α = Except Err α`, and properties speak about successful results (or about which error, where that matters).

## Conventions

* `I80F48` is `Int` (the bit pattern), every operation checked against the i128 range. Scale `S = 2^48`.
* `i64/u64/u128` are `Int`/`Nat` with explicit range checks (`ck64`, `cku64`) where the code's checks or overflow matter,
  and with explicit wrap-around where the code wraps.
* Floats are never computed in `Float`. Display-only float fields are omitted. A float that influences the outcome is one of:
  a parameter (oracle-derived prices), its I80F48 conversion (fee rates, ratios), an arbitrary function with the one
  property used (settle limit: non-negative; health f64 division: monotone), or, for the stable price, an exact rational
  operation followed by an arbitrary monotone rounding with bounded relative error. Such roundings are written `rnd`; the
  assumptions on them (`Swap.IsFloat`, `Stable.IsRnd`) are proved for round-to-nearest-even with 53 significant bits
  (`Float64.isRnd_f64`, relative error 2^-53; exponents unlimited, so overflow and subnormal numbers are left out unless a
  model treats infinity and NaN apart).
* Loops of the code are recursion on the list or on fuel that is proved sufficient or whose exhaustion is a panic.
* Properties are stated in `Verif/Props/*`, each file with a small specification section that does not use the model's
  helpers; models are in the other directories. Each Props file has an example (or an `Ex` file) showing that the hypotheses
  of its theorems are met by a concrete non-trivial case.

## Module map

| Directory | Models | Files of /repo |
|---|---|---|
| Basic, Fixed, ListSum | results, fixed point, sums | i80f48.rs, the `fixed` crate |
| Bank/ | banks: deposit, withdraw, fees, dust, interest, limits, weights; a token as a state machine over all its banks and positions | state/bank.rs, token_register, token_add_bank, token_edit, token_update_index_and_rate, token_liq_bankruptcy (socialization), admin_token_withdraw_fees |
| Book/ | order keys, critbit tree in an arena with free list, book side iteration, event queue | state/orderbook/*.rs |
| Perp/ | matching, order posting, event consumption, perp positions, funding, settle limits, settlement, bankruptcy; a market as a state machine over accounts, book and queue | state/orderbook/book.rs, state/perp_market.rs, mango_account.rs, mango_account_components.rs, perp_* instructions |
| Health/ | the health cache and its construction | health/cache.rs |
| Account/ | health checks and the liquidation flag; the account's bytes and resizing; the account's slots | mango_account.rs, account_* instructions |
| Oracle/ | price reading, fallback, staleness, account lookup | state/oracle.rs, health/account_retriever.rs |
| Flash/ | flash loans, and transactions as lists of instructions of mango and other programs | flash_loan.rs |
| Misc/ | instruction gate, fee buyback, 30-bit division, stable price | group.rs, ix_gate_set, account_buyback_fees_with_mngo, i80f48.rs, stable_price.rs |
@@EXTRA_MODULES@@
## Not modelled

* Anchor account validation (owner, discriminator, seeds) except where a property is about it (C45, C46, C52); token and
  OpenBook program internals; sysvars; logging and events; CPI plumbing.
* Rust `RefCell` borrow failures and compute limits.
* The client side (`lib/`, `bin/`, `ts/`) except for C70, C77, C78, C80 and C84 to C91, C93 to C97, C99 to C101, C106 to C110.
* Testing-only behaviour (testing groups skip event consumption failures), legacy initialisation of the curve scaling.
* Specific simplifications, also stated at the definitions: order tree timestamps as Nat without u64 overflow; book iteration is
  eager; health values enter settlement and the liquidation state machine as parameters; the health region is one operation in C36 (transactions in C79);
  buyback histories have a fixed interval, non-decreasing times and no u64 saturation; oracle account bytes are abstracted to
  `Source`; account bytes are a function `Nat → UInt8` with a length, rent transfers omitted; slots carry one opaque payload;
  in flash loans SPL delegates are omitted, health pre/post checks are functions of the environment, and other programs are lists
  of token account changes and calls into mango, subject to the runtime's rules.

## Findings about the code

Each is a theorem with a concrete witness unless marked (read), in which case it comes from reading the code while modelling.

1. Flash loan End accepts a bank listed twice in its health accounts; the second entry books the loan again as a borrow
   that the closing of the emptied position then erases. The bank keeps a recorded borrow nobody owes
   (`C45_duplicate_bank_erases_debt`).
2. Token bankruptcy with several banks: the `break` (token_liq_bankruptcy.rs 268-270) leaves later banks with the old deposit
   index (`C12_break_leaves_bank_behind`).
3. Token bankruptcy: the new deposit index can become zero or negative if the loss exceeds deposits
   (`C12_index_can_become_negative`).
4. `bank.verify` accepts `util0 = 0`, with which the index update at zero utilization divides by zero
   (`C10_zero_kink_aborts`).
5. Health ordering (init ≤ liquidation end ≤ maintenance) fails when two spot markets with reserved funds share a token with
   different asset and liability weights (`C37_can_fail_with_shared_token`); then an account can leave liquidation with negative
   liquidation-end health (`C35_recovers_with_negative_liq_end_health`).
6. The claim in the code's documentation that health with skipped banks is "guaranteed to be less" fails in the same
   situation (`C40_can_exceed_with_shared_token`).
7. Sell orders with a binding quote limit trade past a better-priced order (`C19_sell_can_skip`) and can be posted crossing
   (`C20_sell_can_cross`).
8. `perp_force_close_position` records a trade without settling funding first; unsettled funding is lost
   (`C25_force_close_loses_funding`).
9. An account can block the event queue by deactivating a perp position with pending taker fills that cancel out
   (`C48_deactivate_blocks_queue`), or by shrinking its open-order section below a slot with a pending event
   (`C48_shrink_blocks_queue`).
10. `perp_create_market` accepts market index 65535, the marker of a free slot (`C32_market_65535_takes_free_slot`).
11. Socializing a perp loss with zero open interest charges nobody (`C31_nobody_pays`).
12. Stable price: the delay price understates the average after gaps of more than ten minutes
    (`C43_delay_understated_after_gaps`); zero stable and oracle price abort (`C43_zero_price_aborts`).
13. Oracles: a zero price with zero deviation is accepted (`C44_zero_price_accepted`); pool prices are checked against the
    deviation of the quote feed, not scaled to the pool price (`C44_pool_deviation_unscaled`); an unreadable primary blocks
    the fallback (`C44_unreadable_primary_blocks_fallback`); stub oracles pass every check, even with a negative price
    (`C44_stub_always_passes`).
14. 30-bit division aborts on the smallest representable operand (`C42_smallest_aborts`).
@@EXTRA_FINDINGS@@
* (read) `Bank::from_existing_bank` copies `oracle` into `fallback_oracle`.
* (read) `health/cache.rs` `assets_and_liabs` indexes `token_infos` with a token index instead of a position: wrong price or panic.
* (read) `verify` is not preserved by completing a weight shift (targets are not verified against each other).
* (read) `OrderTree::is_full` is conservative; `remove_one_expired` uses `<` where `is_expired` uses `>=`.
* (read) market fees are charged with the exact maker fee while makers are charged at the rate rounded to f32 (quantified in C25,
  C27).
* (read) `CancelProvide` self-trade cancels do not decrement the match limit.
* (read) `cancel_all_orders` with limit 0 panics if an active order exists.
* (read) `perp_create_market` does not validate lot sizes; `serum3_register_market` does not reject index 65535.
* (read) `perp_settle_fees` does not refresh the settle limit window before applying the limit.
* (read) settlements below one native unit use no settle limit.
* (read) `perp_edit_market` does not check the stable price growth limits for sign; `delay_interval_seconds = 0` is accepted.
* (read) `resize_dynamic_content` bounds-checks only the first byte of each memmove; C33 proves the rest stays in bounds.

## Testing the theorems against wrong programs

`tools/mutate.py` applies an edit to a scratch copy of the model, rebuilds and records which theorems fail. The log is
`seeded/LOG.jsonl`. Theorems that survived an edit that made their English claim false were tightened (recorded there).
