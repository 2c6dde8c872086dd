import json
P={}
def p(i,m,q): P[i]={"model":m,"proof":q}
p("C01","deposit and withdraw of one bank and position (Bank/Model)","algebra on rounded-up and floored division")
p("C02","a token: any number of banks and positions, all operations (Bank/System)","invariant by induction over histories")
p("C03","deposit (Bank/Model)","bounds of the rounded-up division, case analysis on the sign of the position")
p("C04","withdraw with fee (Bank/Model)","case analysis, exact fee")
p("C05","window counter and check (Bank/Model)","state machine over chronological events, induction")
p("C06","deposit limit check and remaining amount (Bank/Model)","floor arithmetic")
p("C07","checked_transfer_with_fee (Bank/Model)","case analysis, effects of both sides")
p("C08","compute_index, histories of a token","non-negative rates, induction over histories")
p("C09","compute_index","inequalities over all roundings")
p("C10","interest curve (Bank/Model)","piecewise linear monotonicity with rounding; counterexample for util0 = 0")
p("C11","maint weights at a timestamp (Bank/Model)","interval arithmetic over truncated division")
p("C12","the whole token_liq_bankruptcy instruction: phase checks on the health cache, loss, insurance amounts, swap with the liqor, socialization loop over all banks, recovery flag","unpacking the instruction; arithmetic on index reduction; induction over the banks; reduction to operations of the token history; counterexamples for what is false")
p("C13","critbit tree in an arena, both trees in one pool (Book/Tree)","ghost inductive tree, refinement to a sorted list, induction over histories")
p("C14","free list and bump index","part of the C13 invariant")
p("C15","expiry fields of inner nodes","part of the C13 invariant")
p("C16","new_node_key, fixed and pegged price data","bit arithmetic")
p("C17","book side iterator merging two trees","merge of sorted lists")
p("C18","matching loop of new_order","induction over the loop with accumulated totals")
p("C19","matching loop","induction over the loop on the iteration order")
p("C20","order types and posting","case analysis on C17's order")
p("C21","matching loop, maker updates","conservation by induction over the loop")
p("C22","self-trade behaviours","case analysis in the loop")
p("C23","ring buffer (Book/Queue)","refinement to a list")
p("C24","market state machine (Perp/System)","invariant over all histories")
p("C25","market state machine","invariant over all histories; quote ledger per step")
p("C26","slots and events of the market state machine","invariant: event order ids against slot ids")
p("C27","fees in matching and event consumption","sums over fills")
p("C28","settle_funding, update_funding, zero-sum over the market","exact integer identities")
p("C29","settle limit fields and all writers","potential-function induction over histories")
p("C30","compute_settle_fee","case analysis")
p("C31","socialize_loss","truncated division bounds over a reachable market")
p("C32","slot lists of an account and all instructions touching them (Account/Slots)","invariant over all histories")
p("C33","bytes of the dynamic account part, overlapping memmoves, header (Account/Bytes, Resize)","memmove algebra per section")
p("C34","buyback fields of an account (Misc/Buyback)","ghost list of accruals with timestamps, induction")
p("C35","check_health_pre, check_liquidatable, flags","state machine, induction")
p("C36","check_health_post and health region","fixed point case analysis, induction over instructions")
p("C37","health cache: token, spot and perp contributions","monotonicity per item; minimization over spot directions; counterexample")
p("C38","both asset/liability splittings","induction over items with rounding bounds")
p("C39","max amounts to health zero, perp_max_settle","floor and division bounds")
p("C40","cache construction skipping banks (Health/Build)","monotonicity; counterexample")
p("C41","perp health contributions","case analysis with rounding")
p("C42","div_i80f48 30-bit variant on bit level","shift and error bounds")
p("C43","stable price model over rationals with rounding","monotone rounding, induction over histories; counterexamples")
p("C44","oracle state and price selection (Oracle/Model)","decision logic; counterexamples")
p("C45","transactions of mango and other programs, flash loan begin and end (Flash/Model)","invariant over the transaction: no loan open, or the coming instructions pass the scan; effects of each booking from Bank/Effect; counterexample")
p("C46","gate bitmask and admins (Misc/Gate)","bit arithmetic, induction over histories")
p("C47","a token with its vault","potential function with rounding slack, induction over histories")
p("C48","market state machine with deactivation, resizing, closing","invariant over all histories; counterexamples for the exceptions")
p("C50","settlement steps on the market state machine (Perp/SettleSystem)","exact ledger identities")
p("C51","health cache, spot orders","minimum over directions, rounding bounds")
p("C52","both account retrievers (Oracle/Retriever)","decision logic over arbitrary account lists")
p("C53","use counts in Account/Slots","part of the C32 invariant")
exec(open('/verif/tools/plans_more.py').read())
json.dump(P,open('/verif/tools/plans.json','w'),indent=0)
