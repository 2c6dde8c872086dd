{
"C01": {
"model": "deposit and withdraw of one bank and position (Bank/Model)",
"proof": "algebra on rounded-up and floored division"
},
"C02": {
"model": "a token: any number of banks and positions, all operations (Bank/System)",
"proof": "invariant by induction over histories"
},
"C03": {
"model": "deposit (Bank/Model)",
"proof": "bounds of the rounded-up division, case analysis on the sign of the position"
},
"C04": {
"model": "withdraw with fee (Bank/Model)",
"proof": "case analysis, exact fee"
},
"C05": {
"model": "window counter and check (Bank/Model)",
"proof": "state machine over chronological events, induction"
},
"C06": {
"model": "deposit limit check and remaining amount (Bank/Model)",
"proof": "floor arithmetic"
},
"C07": {
"model": "checked_transfer_with_fee (Bank/Model)",
"proof": "case analysis, effects of both sides"
},
"C08": {
"model": "compute_index, histories of a token",
"proof": "non-negative rates, induction over histories"
},
"C09": {
"model": "compute_index",
"proof": "inequalities over all roundings"
},
"C10": {
"model": "interest curve (Bank/Model)",
"proof": "piecewise linear monotonicity with rounding; counterexample for util0 = 0"
},
"C11": {
"model": "maint weights at a timestamp (Bank/Model)",
"proof": "interval arithmetic over truncated division"
},
"C12": {
"model": "the whole token_liq_bankruptcy instruction: phase checks on the health cache, loss, insurance amounts, swap with the liqor, socialization loop over all banks, recovery flag",
"proof": "unpacking the instruction; arithmetic on index reduction; induction over the banks; reduction to operations of the token history; counterexamples for what is false"
},
"C13": {
"model": "critbit tree in an arena, both trees in one pool (Book/Tree)",
"proof": "ghost inductive tree, refinement to a sorted list, induction over histories"
},
"C14": {
"model": "free list and bump index",
"proof": "part of the C13 invariant"
},
"C15": {
"model": "expiry fields of inner nodes",
"proof": "part of the C13 invariant"
},
"C16": {
"model": "new_node_key, fixed and pegged price data",
"proof": "bit arithmetic"
},
"C17": {
"model": "book side iterator merging two trees",
"proof": "merge of sorted lists"
},
"C18": {
"model": "matching loop of new_order",
"proof": "induction over the loop with accumulated totals"
},
"C19": {
"model": "matching loop",
"proof": "induction over the loop on the iteration order"
},
"C20": {
"model": "order types and posting",
"proof": "case analysis on C17's order"
},
"C21": {
"model": "matching loop, maker updates",
"proof": "conservation by induction over the loop"
},
"C22": {
"model": "self-trade behaviours",
"proof": "case analysis in the loop"
},
"C23": {
"model": "ring buffer (Book/Queue)",
"proof": "refinement to a list"
},
"C24": {
"model": "market state machine (Perp/System)",
"proof": "invariant over all histories"
},
"C25": {
"model": "market state machine",
"proof": "invariant over all histories; quote ledger per step"
},
"C26": {
"model": "slots and events of the market state machine",
"proof": "invariant: event order ids against slot ids"
},
"C27": {
"model": "fees in matching and event consumption",
"proof": "sums over fills"
},
"C28": {
"model": "settle_funding, update_funding, zero-sum over the market",
"proof": "exact integer identities"
},
"C29": {
"model": "settle limit fields and all writers",
"proof": "potential-function induction over histories"
},
"C30": {
"model": "compute_settle_fee",
"proof": "case analysis"
},
"C31": {
"model": "socialize_loss",
"proof": "truncated division bounds over a reachable market"
},
"C32": {
"model": "slot lists of an account and all instructions touching them (Account/Slots)",
"proof": "invariant over all histories"
},
"C33": {
"model": "bytes of the dynamic account part, overlapping memmoves, header (Account/Bytes, Resize)",
"proof": "memmove algebra per section"
},
"C34": {
"model": "buyback fields of an account (Misc/Buyback)",
"proof": "ghost list of accruals with timestamps, induction"
},
"C35": {
"model": "check_health_pre, check_liquidatable, flags",
"proof": "state machine, induction"
},
"C36": {
"model": "check_health_post and health region",
"proof": "fixed point case analysis, induction over instructions"
},
"C37": {
"model": "health cache: token, spot and perp contributions",
"proof": "monotonicity per item; minimization over spot directions; counterexample"
},
"C38": {
"model": "both asset/liability splittings",
"proof": "induction over items with rounding bounds"
},
"C39": {
"model": "max amounts to health zero, perp_max_settle",
"proof": "floor and division bounds"
},
"C40": {
"model": "cache construction skipping banks (Health/Build)",
"proof": "monotonicity; counterexample"
},
"C41": {
"model": "perp health contributions",
"proof": "case analysis with rounding"
},
"C42": {
"model": "div_i80f48 30-bit variant on bit level",
"proof": "shift and error bounds"
},
"C43": {
"model": "stable price model over rationals with rounding",
"proof": "monotone rounding, induction over histories; counterexamples"
},
"C44": {
"model": "oracle state and price selection (Oracle/Model)",
"proof": "decision logic; counterexamples"
},
"C45": {
"model": "transactions of mango and other programs, flash loan begin and end (Flash/Model)",
"proof": "invariant over the transaction: no loan open, or the coming instructions pass the scan; effects of each booking from Bank/Effect; counterexample"
},
"C46": {
"model": "gate bitmask and admins (Misc/Gate)",
"proof": "bit arithmetic, induction over histories"
},
"C47": {
"model": "a token with its vault",
"proof": "potential function with rounding slack, induction over histories"
},
"C48": {
"model": "market state machine with deactivation, resizing, closing",
"proof": "invariant over all histories; counterexamples for the exceptions"
},
"C50": {
"model": "settlement steps on the market state machine (Perp/SettleSystem)",
"proof": "exact ledger identities"
},
"C51": {
"model": "health cache, spot orders",
"proof": "minimum over directions, rounding bounds"
},
"C52": {
"model": "both account retrievers (Oracle/Retriever)",
"proof": "decision logic over arbitrary account lists"
},
"C53": {
"model": "use counts in Account/Slots",
"proof": "part of the C32 invariant"
},
"C54": {
"model": "token conditional swaps: prices, amounts, trigger, start, create (Tcs/Model)",
"proof": "exact arithmetic of the amount computation; a trigger's effects from Bank/Effect; induction over the life of a swap"
},
"C55": {
"model": "health from banks, perp markets, open orders accounts and prices (Health/FromState), specification Health/Formula",
"proof": "unfold the passes over tokens, perps and spot markets into sums; monotone rounding for the scaled weights"
},
"C56": {
"model": "token_liq_with_token (Liq/Token), cache update and health from Liq/Phases, Health/Model",
"proof": "unfold the amounts; exact effect of the position updates; health difference as a change of two terms of the C55 formula; integer arithmetic for the rounding errors"
},
"C57": {
"model": "in-place updates of the health cache (Health/Update) next to building it from the state (Health/FromState)",
"proof": "invariant: the cache describes the state up to the scaled init asset weights; both computations have the C55 formula as value"
},
"C58": {
"model": "spot order placement, settling, force cancelling (Serum/Model); the exchange is an arbitrary environment",
"proof": "ledger of borrowed and charged amounts; induction over histories with the invariant borrowed = charged + pending"
},
"C59": {
"model": "remembered prices and amounts of a spot open orders account (Serum/Model)",
"proof": "induction over histories of orders on the book; monotone rounding"
},
"C60": {
"model": "potential tokens of banks and open orders accounts (Serum/Model)",
"proof": "invariant: counter of a bank = sum over open orders accounts, updated by differences"
},
"C61": {
"model": "serum3_place_order and serum3_liq_force_cancel_orders (Serum/Model) with the health cache of Health/Update",
"proof": "the in-place updates of the instruction are updates in the sense of C57; checks by unfolding"
},
"C62": {
"model": "token_charge_collateral_fees and assets_and_liabs (Misc/Collateral)",
"proof": "the loops compute sums of plain formulas; integer arithmetic for the bounds; induction over calls for the time"
},
"C63": {
"model": "perp_liq_base_or_positive_pnl (Liq/PerpBase) on perp positions, settle bank and health cache",
"proof": "each sizing step is described by plain arithmetic; invariants over the five steps (within limits; health without the last lot not positive; the projected balance covers what the position counts for); exact effect on the C55 formula"
},
"C64": {
"model": "token_deposit, token_deposit_into_existing, token_withdraw, token_force_withdraw (Wallet/Model) on account state, bank, vault and wallet",
"proof": "bank effects from Bank/*; health through C57 (withdraw) and through the exact worth of C41's bounds with a raised balance (deposit)"
},
"C65": {
"model": "token_force_close_borrows_with_token (Liq/ForceClose) on account state, banks and positions",
"proof": "bank effects from Bank/*; the health of two states that differ in two token positions differs by two terms of the C55 formula (Props/HealthRecache); integer arithmetic with the weight condition"
},
"C66": {
"model": "token_register, token_register_trustless, token_edit, token_add_bank, perp_edit_market, serum3_edit_market and Bank::verify (Config/Model) with all settings; floats with NaN and infinities; the edit as a list of steps, in the order of the code",
"proof": "the steps are run symbolically once to get a field-by-field specification (Config/Spec, Config/Steps); the rest follows from it by induction over histories"
},
"C67": {
"model": "token_register_trustless with its quota (Config/Model)",
"proof": "computation for the fixed settings; induction over the listings for the quota"
},
"C68": {
"model": "perp_place_order (Perp/OrderIx): funding update, reduce-only rules, the order of Perp/Place, health before and after in the cache updated in place",
"proof": "each instruction is a step of Perp/System, so its invariants apply; a relation between positions (no more exposure) shown for every step, induction over histories; health through C57"
},
"C69": {
"model": "perp_force_close_position (forceCloseOp in Perp/System) and the health value of perp positions",
"proof": "unfolding; floors of sums for the health part"
},
"C70": {
"model": "health/client.rs (Client/Search, Client/Model): doubling scan, bisection, search for a maximum, and the borrow, swap and perp computations on the health cache",
"proof": "invariants of the search loops (Client/SearchLemmas): the bisection keeps a value on each side of the target, the maximum search keeps the top inside a centred bracket that shrinks; the computations follow by cases"
},
"C71": {
"model": "the rights in the fixed part of accounts, account_edit, account_toggle_freeze, sequence_check, account_close, and a table of the signature and freeze checks of all instructions on mango accounts (Auth/Model)",
"proof": "an invariant ties every field to the last event of the history that sets it; induction over histories; the tables by cases"
},
"C72": {
"model": "perp_settle_pnl, perp_settle_fees and admin_perp_withdraw_fees as whole instructions on accounts with token and perp positions (Settle/Model)",
"proof": "lookups as finite maps (Settle/Lookup); the perp part from C50, the bank part as steps of token histories (Bank/*), health as a change of one token and one perp term of the C55 formula (Props/SettleHealth); induction over fee histories"
},
"C73": {
"model": "perp_liq_negative_pnl_or_bankruptcy as a whole instruction (Liq/PerpNegative) on top of Perp.bankruptcy",
"proof": "amounts by taking the code apart (PerpNegAmounts), tokens as steps of token histories, perp positions from C50, health as a change of one token and one perp term of the C55 formula with the zero-health lemma C39_given"
},
"C74": {
"model": "cancelling by id, client id and all (Perp/System), perp_liq_force_cancel_orders (Perp/CancelIx)",
"proof": "one slot at a time from the reachable-state invariant (which slot names which order), composed along the loop; health from the worse-of-bids-and-asks formula by monotonicity of the weighted base value"
},
"C75": {
"model": "new_order with dropping an expired order and evicting the worst (Perp/Model, Book/*)",
"proof": "from the decomposition of a placed order (Perp/Place): the own side as a set of orders before and after, worst order from C23"
},
"C76": {
"model": "quantity_at_price, best_price, impact_price, matched_amount, matched_quantity (Book/Side)",
"proof": "the merged iterator is a sorted permutation of the orders that can trade (C23); induction over it; the order part by induction over the trace of the matching loop"
},
"C77": {
"model": "the fills filter (Feeds/Fills) on the event queue of Book/Queue",
"proof": "the ring is a window of the log of all events; two versions share a prefix of the log; sums over the window for the net count, induction over the versions"
},
"C78": {
"model": "publish_changes, the filter loop, the receiver and a subscriber (Feeds/Book)",
"proof": "levels of a sorted list by induction; an update gives the new quantities, so applying it again changes nothing; invariant over all schedules: catching up from the view, the checkpoint, or a checkpoint on its way gives the service's levels"
},
"C79": {
"model": "health_region_begin and _end in transactions of top-level instructions and calls from other programs (Region/Model)",
"proof": "the search for the end gives the shape of the rest of the transaction; induction over its length with the invariant that only the account of the open region is marked; the health part from C36"
},
"C80": {
"model": "deriving health accounts in the client library (Client/Accounts) on the slots of Account/Slots, read by Oracle/Retriever",
"proof": "slot invariants (C32, C53) give the positions of the library's copy, C52's completeness theorems the lookups; price reading depends only on the feed of the pool's quote token"
},
"C81": {
"model": "health_check (Health/CheckIx) on the caches of Health/FromState",
"proof": "C40 on one view that has the complete data with the flags of the data passed; for ratios, liabilities and assets minus liabilities as sums over the tokens, each monotone in the balance"
},
"C82": {
"model": "the accounts of a group by address and the instructions creating and closing them (Config/Registry)",
"proof": "an invariant over all histories: what each address holds, and that mint infos and banks name each other"
},
"C83": {
"model": "the insurance vault and the instructions touching it, with SPL token transfers, on top of the two bankruptcies (Liq/Insurance)",
"proof": "an invariant over all histories (one vault, of the insurance mint); each step's effect on all token accounts; sums over histories"
},
"C84": {
"model": "the shared state of the liquidator, its two channels and its workers as a transition system (Bots/Workers)",
"proof": "an invariant over all interleavings: who holds what, and waiting candidates counted against signals; a decreasing measure for progress"
},
"C85": {
"model": "the account cache with its registered jobs as a transition system; data is an address and the time it was read (Client/Fetcher)",
"proof": "an invariant over all interleavings (registered jobs are the running ones, cached data is of its address, listed keys are cached), with a lower bound for the age of data"
},
"C86": {
"model": "`fetch_top` on lists of accounts with their pnl and health limit (Client/PerpPnl)",
"proof": "the loop leaves a prefix with true values of which `count` are not above the rest; a stable sort puts these first"
},
"C87": {
"model": "the loops that pair gains with losses, over any priority queue, and the batch processor (Bots/Settler)",
"proof": "induction over the two loops with the queue written as the initial one minus what was taken; each round uses up an account; an invariant of the batch processor"
},
"C88": {
"model": "the error tracking with explicit times (Bots/Errors)",
"proof": "induction over the history against the list of errors since the last clearing"
},
"C89": {
"model": "`send_liq_tx` with the selection of markets and tokens on the cache of C55 (Bots/Liquidate)",
"proof": "the phases of the cache are translated to the positions; if only losses are left, health is a sum of non-negative values unless a token is owed or pnl is negative"
},
"C90": {
"model": "the selection and sizing functions on the banks and swaps of the program's model (Bots/Trigger)",
"proof": "each reduction of an amount by a limit is shown to give the greatest fitting amount; two reductions compose"
},
"C91": {
"model": "the loop as a transition system with arbitrary choices, and the selection of executions on the account slots of C32 (Bots/TriggerRun)",
"proof": "an invariant of all reachable states and a decreasing measure; positions by counting free slots"
},
"C92": {
"model": "compute_equity as a map built entry by entry, ComputeAccountData, the f64 division (Health/Equity); health as in C55",
"proof": "debts valued at their rounded weighted price, concavity of worth in the balance as in C51, then oracle prices as bounds; sums regrouped by token"
},
"C93": {
"model": "calls as a transition system with the mutex of each pair, cut at the awaits (Bots/QuoteCache)",
"proof": "an invariant of all reachable states; (5) by induction over the schedule; termination by a measure"
},
"C94": {
"model": "the decisions as functions of what the bot has read (Bots/Rebalance), the program's closing of open orders accounts by Account/Slots, the book by Book/Depth",
"proof": "inversion of each decision, bounds of each rounded product; the sort by its order; the defects from the uniqueness of open orders accounts (C32)"
},
"C95": {
"model": "the keeper's decisions as functions of what it has read (Bots/Keeper), the market by Perp/System, the charge by Misc/Collateral",
"proof": "induction over the events looked at, over the events consumed and over the instruction list; every instruction only appends to and pops from the queue (`Feeds.Moves`)"
},
"C96": {
"model": "the check and the selection as functions of what the bot has read (Bots/TcsStart), the program's instruction by Tcs/Model",
"proof": "both decisions are inverted and compared step by step; the bot's trial withdrawal is the program's, and the net borrow check is monotone in the amount; (4) by induction over the group"
},
"C97": {
"model": "the sinks as functions of the queue (Bots/Crank); the program's queue and instruction by Perp/*",
"proof": "(1) by C95's lemma on the program's loop; (2) by an invariant between the ring and the list over every history; (3) by evaluation of the look-up for every key"
},
"C98": {
"model": "memory as bytes with a mapped range, `alloc` and `used` on it (Misc/Allocator)",
"proof": "an invariant over the history: the stored word is the end of the last block and above all others; the mask arithmetic is rounding up to a multiple, by bits"
},
"C99": {
"model": "the updater and the request as functions; the unstable sort as any permutation in order (Bots/Pnl); lengths of accounts by Account/Bytes",
"proof": "(2) and (3) by the order of the sorted list, with `none` below all values; (4) by arithmetic on the account layout"
},
"C100": {
"model": "the two functions, the queue of snapshots, the map of what was persisted and the table as a list of rows; a write has one of three outcomes (Bots/Persist)",
"proof": "an invariant on the queue: buckets increase, the last snapshot holds the newest value of every account held by an earlier one; what was persisted is what the view shows unless a waiting snapshot has the account; rounding monotone"
},
"C101": {
"model": "the planning functions on the slots of an account (Client/SlotPlan), executed with the model of the program's slot handling (Account/Slots) that C32 and C53 are about",
"proof": "the difference between missing tokens and free positions: closing a position of another token lowers it by one if the health accounts fit, everything else leaves it; creating the open orders account needs it at most zero"
},
"C102": {
"model": "the instruction with its constraints (Account/Close) on the slots of an account (Account/Slots) and on the accounts of a perp market (Perp/System)",
"proof": "from the use counts (C53): without token positions no use count is positive, so nothing else is open; (2) by induction on the number of things open; (3) from the invariant of the market (C24, C48)"
},
"C103": {
"model": "the perp market with all its accounts (Perp/System)",
"proof": "induction on the history: what one instruction leaves on the book and adds to the queue, from the matching trace (C18, C20) and the invariant of the market"
},
"C104": {
"model": "the perp market with all its accounts (Perp/System)",
"proof": "induction on the history: an instruction moves lots of an order from the book into trades and never back (Perp/Moved), and new orders get new ids"
},
"C105": {
"model": "the entry points in front of perp_place_order (Perp/Entry)",
"proof": "an instruction is an order of the market's history or nothing, so C103 applies; the conversion of expiry and type is arithmetic"
},
"C106": {
"model": "the waiting loop over what it sees (Client/Confirm)",
"proof": "case analysis of the turn that ends the loop; monotonicity of the world"
},
"C107": {
"model": "the counter and the macro (Client/Confirm)",
"proof": "induction on the history: the counter is the length of the streak modulo n+1"
},
"C108": {
"model": "the updater with its error tracker (Bots/SwapInfo)",
"proof": "induction on the history from its end; field arithmetic"
},
"C109": {
"model": "the budget instructions, prepared instructions and fee provider (Client/Budget)",
"proof": "case analysis on what the caller gave; induction on the calls and on the blocks"
},
"C110": {
"model": "the refresh loop (Client/Refresh)",
"proof": "induction on the turns of the loop"
}
}