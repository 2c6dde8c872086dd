p("C54","token conditional swaps: prices, amounts, trigger, start, create (Tcs/Model)","exact arithmetic of the amount computation; a trigger's effects from Bank/Effect; induction over the life of a swap")
p("C55","health from banks, perp markets, open orders accounts and prices (Health/FromState), specification Health/Formula","unfold the passes over tokens, perps and spot markets into sums; monotone rounding for the scaled weights")
p("C56","token_liq_with_token (Liq/Token), cache update and health from Liq/Phases, Health/Model","unfold the amounts; exact effect of the position updates; health difference as a change of two terms of the C55 formula; integer arithmetic for the rounding errors")
p("C57","in-place updates of the health cache (Health/Update) next to building it from the state (Health/FromState)","invariant: the cache describes the state up to the scaled init asset weights; both computations have the C55 formula as value")
p("C58","spot order placement, settling, force cancelling (Serum/Model); the exchange is an arbitrary environment","ledger of borrowed and charged amounts; induction over histories with the invariant borrowed = charged + pending")
p("C59","remembered prices and amounts of a spot open orders account (Serum/Model)","induction over histories of orders on the book; monotone rounding")
p("C60","potential tokens of banks and open orders accounts (Serum/Model)","invariant: counter of a bank = sum over open orders accounts, updated by differences")
p("C61","serum3_place_order and serum3_liq_force_cancel_orders (Serum/Model) with the health cache of Health/Update","the in-place updates of the instruction are updates in the sense of C57; checks by unfolding")
p("C62","token_charge_collateral_fees and assets_and_liabs (Misc/Collateral)","the loops compute sums of plain formulas; integer arithmetic for the bounds; induction over calls for the time")
p("C63","perp_liq_base_or_positive_pnl (Liq/PerpBase) on perp positions, settle bank and health cache","each sizing step is described by plain arithmetic; invariants over the five steps (within limits; health without the last lot not positive; the projected balance covers what the position counts for); exact effect on the C55 formula")
p("C64","token_deposit, token_deposit_into_existing, token_withdraw, token_force_withdraw (Wallet/Model) on account state, bank, vault and wallet","bank effects from Bank/*; health through C57 (withdraw) and through the exact worth of C41's bounds with a raised balance (deposit)")
p("C65","token_force_close_borrows_with_token (Liq/ForceClose) on account state, banks and positions","bank effects from Bank/*; the health of two states that differ in two token positions differs by two terms of the C55 formula (Props/HealthRecache); integer arithmetic with the weight condition")
p("C66","token_register, token_register_trustless, token_edit, token_add_bank, perp_edit_market, serum3_edit_market and Bank::verify (Config/Model) with all settings; floats with NaN and infinities; the edit as a list of steps, in the order of the code","the steps are run symbolically once to get a field-by-field specification (Config/Spec, Config/Steps); the rest follows from it by induction over histories")
p("C67","token_register_trustless with its quota (Config/Model)","computation for the fixed settings; induction over the listings for the quota")
p("C68","perp_place_order (Perp/OrderIx): funding update, reduce-only rules, the order of Perp/Place, health before and after in the cache updated in place","each instruction is a step of Perp/System, so its invariants apply; a relation between positions (no more exposure) shown for every step, induction over histories; health through C57")
p("C69","perp_force_close_position (forceCloseOp in Perp/System) and the health value of perp positions","unfolding; floors of sums for the health part")
p("C70","health/client.rs (Client/Search, Client/Model): doubling scan, bisection, search for a maximum, and the borrow, swap and perp computations on the health cache","invariants of the search loops (Client/SearchLemmas): the bisection keeps a value on each side of the target, the maximum search keeps the top inside a centred bracket that shrinks; the computations follow by cases")
p("C71","the rights in the fixed part of accounts, account_edit, account_toggle_freeze, sequence_check, account_close, and a table of the signature and freeze checks of all instructions on mango accounts (Auth/Model)","an invariant ties every field to the last event of the history that sets it; induction over histories; the tables by cases")
p("C72","perp_settle_pnl, perp_settle_fees and admin_perp_withdraw_fees as whole instructions on accounts with token and perp positions (Settle/Model)","lookups as finite maps (Settle/Lookup); the perp part from C50, the bank part as steps of token histories (Bank/*), health as a change of one token and one perp term of the C55 formula (Props/SettleHealth); induction over fee histories")
p("C73","perp_liq_negative_pnl_or_bankruptcy as a whole instruction (Liq/PerpNegative) on top of Perp.bankruptcy","amounts by taking the code apart (PerpNegAmounts), tokens as steps of token histories, perp positions from C50, health as a change of one token and one perp term of the C55 formula with the zero-health lemma C39_given")
p("C74","cancelling by id, client id and all (Perp/System), perp_liq_force_cancel_orders (Perp/CancelIx)","one slot at a time from the reachable-state invariant (which slot names which order), composed along the loop; health from the worse-of-bids-and-asks formula by monotonicity of the weighted base value")
p("C75","new_order with dropping an expired order and evicting the worst (Perp/Model, Book/*)","from the decomposition of a placed order (Perp/Place): the own side as a set of orders before and after, worst order from C23")
p("C76","quantity_at_price, best_price, impact_price, matched_amount, matched_quantity (Book/Side)","the merged iterator is a sorted permutation of the orders that can trade (C23); induction over it; the order part by induction over the trace of the matching loop")
p("C77","the fills filter (Feeds/Fills) on the event queue of Book/Queue","the ring is a window of the log of all events; two versions share a prefix of the log; sums over the window for the net count, induction over the versions")
p("C78","publish_changes, the filter loop, the receiver and a subscriber (Feeds/Book)","levels of a sorted list by induction; an update gives the new quantities, so applying it again changes nothing; invariant over all schedules: catching up from the view, the checkpoint, or a checkpoint on its way gives the service's levels")
p("C79","health_region_begin and _end in transactions of top-level instructions and calls from other programs (Region/Model)","the search for the end gives the shape of the rest of the transaction; induction over its length with the invariant that only the account of the open region is marked; the health part from C36")
p("C80","deriving health accounts in the client library (Client/Accounts) on the slots of Account/Slots, read by Oracle/Retriever","slot invariants (C32, C53) give the positions of the library's copy, C52's completeness theorems the lookups; price reading depends only on the feed of the pool's quote token")
p("C81","health_check (Health/CheckIx) on the caches of Health/FromState","C40 on one view that has the complete data with the flags of the data passed; for ratios, liabilities and assets minus liabilities as sums over the tokens, each monotone in the balance")
p("C82","the accounts of a group by address and the instructions creating and closing them (Config/Registry)","an invariant over all histories: what each address holds, and that mint infos and banks name each other")
p("C83","the insurance vault and the instructions touching it, with SPL token transfers, on top of the two bankruptcies (Liq/Insurance)","an invariant over all histories (one vault, of the insurance mint); each step's effect on all token accounts; sums over histories")
p("C84","the shared state of the liquidator, its two channels and its workers as a transition system (Bots/Workers)","an invariant over all interleavings: who holds what, and waiting candidates counted against signals; a decreasing measure for progress")
p("C85","the account cache with its registered jobs as a transition system; data is an address and the time it was read (Client/Fetcher)","an invariant over all interleavings (registered jobs are the running ones, cached data is of its address, listed keys are cached), with a lower bound for the age of data")
p("C86","`fetch_top` on lists of accounts with their pnl and health limit (Client/PerpPnl)","the loop leaves a prefix with true values of which `count` are not above the rest; a stable sort puts these first")
p("C87","the loops that pair gains with losses, over any priority queue, and the batch processor (Bots/Settler)","induction over the two loops with the queue written as the initial one minus what was taken; each round uses up an account; an invariant of the batch processor")
p("C88","the error tracking with explicit times (Bots/Errors)","induction over the history against the list of errors since the last clearing")
p("C89","`send_liq_tx` with the selection of markets and tokens on the cache of C55 (Bots/Liquidate)","the phases of the cache are translated to the positions; if only losses are left, health is a sum of non-negative values unless a token is owed or pnl is negative")
p("C90","the selection and sizing functions on the banks and swaps of the program's model (Bots/Trigger)","each reduction of an amount by a limit is shown to give the greatest fitting amount; two reductions compose")
p("C91","the loop as a transition system with arbitrary choices, and the selection of executions on the account slots of C32 (Bots/TriggerRun)","an invariant of all reachable states and a decreasing measure; positions by counting free slots")
p("C92","compute_equity as a map built entry by entry, ComputeAccountData, the f64 division (Health/Equity); health as in C55","debts valued at their rounded weighted price, concavity of worth in the balance as in C51, then oracle prices as bounds; sums regrouped by token")
p("C93","calls as a transition system with the mutex of each pair, cut at the awaits (Bots/QuoteCache)","an invariant of all reachable states; (5) by induction over the schedule; termination by a measure")
p("C94","the decisions as functions of what the bot has read (Bots/Rebalance), the program's closing of open orders accounts by Account/Slots, the book by Book/Depth","inversion of each decision, bounds of each rounded product; the sort by its order; the defects from the uniqueness of open orders accounts (C32)")
p("C95","the keeper's decisions as functions of what it has read (Bots/Keeper), the market by Perp/System, the charge by Misc/Collateral","induction over the events looked at, over the events consumed and over the instruction list; every instruction only appends to and pops from the queue (`Feeds.Moves`)")
p("C96","the check and the selection as functions of what the bot has read (Bots/TcsStart), the program's instruction by Tcs/Model","both decisions are inverted and compared step by step; the bot's trial withdrawal is the program's, and the net borrow check is monotone in the amount; (4) by induction over the group")
p("C97","the sinks as functions of the queue (Bots/Crank); the program's queue and instruction by Perp/*","(1) by C95's lemma on the program's loop; (2) by an invariant between the ring and the list over every history; (3) by evaluation of the look-up for every key")
p("C98","memory as bytes with a mapped range, `alloc` and `used` on it (Misc/Allocator)","an invariant over the history: the stored word is the end of the last block and above all others; the mask arithmetic is rounding up to a multiple, by bits")
p("C99","the updater and the request as functions; the unstable sort as any permutation in order (Bots/Pnl); lengths of accounts by Account/Bytes","(2) and (3) by the order of the sorted list, with `none` below all values; (4) by arithmetic on the account layout")
p("C100","the two functions, the queue of snapshots, the map of what was persisted and the table as a list of rows; a write has one of three outcomes (Bots/Persist)","an invariant on the queue: buckets increase, the last snapshot holds the newest value of every account held by an earlier one; what was persisted is what the view shows unless a waiting snapshot has the account; rounding monotone")
p("C101","the planning functions on the slots of an account (Client/SlotPlan), executed with the model of the program's slot handling (Account/Slots) that C32 and C53 are about","the difference between missing tokens and free positions: closing a position of another token lowers it by one if the health accounts fit, everything else leaves it; creating the open orders account needs it at most zero")
p("C102","the instruction with its constraints (Account/Close) on the slots of an account (Account/Slots) and on the accounts of a perp market (Perp/System)","from the use counts (C53): without token positions no use count is positive, so nothing else is open; (2) by induction on the number of things open; (3) from the invariant of the market (C24, C48)")
p("C103","the perp market with all its accounts (Perp/System)","induction on the history: what one instruction leaves on the book and adds to the queue, from the matching trace (C18, C20) and the invariant of the market")
p("C104","the perp market with all its accounts (Perp/System)","induction on the history: an instruction moves lots of an order from the book into trades and never back (Perp/Moved), and new orders get new ids")
p("C105","the entry points in front of perp_place_order (Perp/Entry)","an instruction is an order of the market's history or nothing, so C103 applies; the conversion of expiry and type is arithmetic")
p("C106","the waiting loop over what it sees (Client/Confirm)","case analysis of the turn that ends the loop; monotonicity of the world")
p("C107","the counter and the macro (Client/Confirm)","induction on the history: the counter is the length of the streak modulo n+1")
p("C108","the updater with its error tracker (Bots/SwapInfo)","induction on the history from its end; field arithmetic")
p("C109","the budget instructions, prepared instructions and fee provider (Client/Budget)","case analysis on what the caller gave; induction on the calls and on the blocks")
p("C110","the refresh loop (Client/Refresh)","induction on the turns of the loop")
