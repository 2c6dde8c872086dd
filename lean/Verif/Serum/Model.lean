import Verif.Health.Update
import Verif.Bank.System
import Verif.Account.HealthCheck
import Verif.Misc.Buyback
/-!
# Spot orders (OpenBook/Serum)

Models instructions/serum3_place_order.rs, serum3_settle_funds.rs, serum3_liq_force_cancel_orders.rs: everything the program does around the calls into the external dex program. What the dex
does is an input: the open orders account, the vault balance and whether the order rests on the book after the call. Key and signer checks, account lookups and logs are left out. f64
operations are rational operations followed by `rnd`, as in `Verif.Tcs.Model`.
-/
namespace Mango
namespace Serum
open Fx Health

/-- serum3_cpi.rs:141-147 `OpenOrdersSlim` (u64 fields) -/
structure OO where
  baseFree : Int := 0
  baseTotal : Int := 0
  quoteFree : Int := 0
  quoteTotal : Int := 0
  rebates : Int := 0
  deriving DecidableEq, Repr

/-- serum3_cpi.rs:171-176 -/
def OO.baseReserved (o : OO) : Res Int := cku64 (o.baseTotal - o.baseFree)
def OO.quoteReserved (o : OO) : Res Int := cku64 (o.quoteTotal - o.quoteFree)

/-- mango_account_components.rs:115-166 `Serum3Orders` -/
structure Orders where
  base : Nat
  quote : Nat
  market : Nat
  baseBorrows : Int := 0
  quoteBorrows : Int := 0
  highestBidInv : ℚ := 0
  lowestAsk : ℚ := 0
  potentialBase : Int := 0
  potentialQuote : Int := 0
  lowestBidInv : ℚ := 0
  highestAsk : ℚ := 0
  deriving DecidableEq

inductive Side where
  | bid
  | ask
  deriving DecidableEq, Repr

/-- `to_num::<u64>()` of a non-negative amount -/
def toU64 (x : I80F48) : Res Int := cku64 (x / S)

/-- serum3_place_order.rs:513-581 `apply_vault_difference` for the counter of borrows of that token: bank, position, counter, change of the native balance -/
def vaultDifference (b : Bank) (p : TokenPosition) (borrows after before now : Int) : Res (Bank × TokenPosition × Int × I80F48) := do
  let needed ← Fx.sub (ofInt after) (ofInt before)
  let n0 ← p.native b
  let (b, p, _) ← (if needed ≥ 0 then b.deposit p needed now else do
    let m ← Fx.neg needed
    b.withdrawWithoutFee p m now)
  let n1 ← p.native b
  let change ← Fx.sub n1 n0
  let a ← Fx.abs (min (max change n1) 0)
  let newBorrows ← toU64 a
  let borrows ← cku64 (borrows + newBorrows)
  (if needed > 0 then do
    let x ← toU64 needed
    .ok (b, p, max 0 (borrows - x), change)
   else .ok (b, p, borrows, change))

/-- serum3_settle_funds.rs:145-245 `charge_loan_origination_fees`, one of the two tokens: bank, position, counter, loan the fee was charged on -/
def chargeLoan (b : Bank) (p : TokenPosition) (borrows total now : Int) : Res (Bank × TokenPosition × Int × Int) :=
  let loan := max 0 (borrows - total)
  if ofInt loan > 0 then do
    let (b, p, _) ← b.withdrawLoanOriginationFee p (ofInt loan) now
    .ok (b, p, total, loan)
  else .ok (b, p, borrows, 0)

/-- serum3_place_order.rs:711-714: the most base tokens that may flow out of the open orders account -/
def newPotentialBase (rnd : ℚ → ℚ) (s : Orders) (o : OO) : Res Int := do
  let r ← o.quoteReserved
  cku64 (o.baseTotal + Swap.castU64 (rnd (rnd r * s.lowestBidInv)))
/-- 713-714: quote tokens -/
def newPotentialQuote (rnd : ℚ → ℚ) (s : Orders) (o : OO) : Res Int := do
  let r ← o.baseReserved
  cku64 (o.quoteTotal + Swap.castU64 (rnd (rnd r * s.highestAsk)))

/-- 699-726 `update_bank_potential_tokens`; `none` for a bank that is not writable (673-697 `update_bank_potential_tokens_payer_only`) -/
def updatePotential (rnd : ℚ → ℚ) (s : Orders) (base quote : Option Bank) (o : OO) : Res (Orders × Option Bank × Option Bank) := do
  let nb ← (if base.isSome then newPotentialBase rnd s o else .ok s.potentialBase)
  let nq ← (if quote.isSome then newPotentialQuote rnd s o else .ok s.potentialQuote)
  let base ← (match base with
    | some b => do
      let b ← b.updatePotentialSerumTokens s.potentialBase nb
      .ok (some b)
    | none => .ok none)
  let quote ← (match quote with
    | some b => do
      let b ← b.updatePotentialSerumTokens s.potentialQuote nq
      .ok (some b)
    | none => .ok none)
  .ok ({ s with potentialBase := nb, potentialQuote := nq }, base, quote)

/-- 247: limit price in native quote per native base -/
def limitPrice (rnd : ℚ → ℚ) (lots baseLot quoteLot : Int) : ℚ := rnd (rnd (rnd lots * rnd quoteLot) / rnd baseLot)

/-- the smaller and the larger of two, 0 meaning "none yet" -/
def minOr (x price : ℚ) : ℚ := if x = 0 then price else min x price
def maxOr (x price : ℚ) : ℚ := if x = 0 then price else max x price

/-- 235-280: track the extreme prices of placed orders -/
def trackPrices (rnd : ℚ → ℚ) (s : Orders) (hadBids hadAsks onBook : Bool) (side : Side) (price : ℚ) : Orders :=
  let s := if hadBids then s else { s with highestBidInv := 0, lowestBidInv := 0 }
  let s := if hadAsks then s else { s with lowestAsk := 0, highestAsk := 0 }
  if onBook then
    match side with
    | .ask => { s with lowestAsk := minOr s.lowestAsk price, highestAsk := maxOr s.highestAsk price }
    | .bid => { s with highestBidInv := minOr s.highestBidInv (rnd (1 / price)), lowestBidInv := maxOr s.lowestBidInv (rnd (1 / price)) }
  else s

/-- what health sees of the open orders (cache.rs:266-293 `Serum3Info::new`) -/
def view (s : Orders) (o : OO) : Res OpenOrd := do
  let br ← o.baseReserved
  let qr ← o.quoteReserved
  let ask ← Swap.toFx s.lowestAsk
  let bid ← Swap.toFx s.highestBidInv
  .ok { base := s.base, quote := s.quote, baseFree := o.baseFree, quoteFree := o.quoteFree, baseReserved := br, quoteReserved := qr, lowestAsk := ask, highestBidInv := bid,
        marketIndex := s.market, hasZeroFunds := decide (o.baseTotal = 0 ∧ o.quoteTotal = 0 ∧ o.rebates = 0) }

/-- 362-396: price band around the oracle price -/
def checkBand (rnd : ℚ → ℚ) (side : Side) (band price : ℚ) (baseOracle quoteOracle : I80F48) : Res Unit :=
  let bo := Swap.toF rnd baseOracle
  let dollars := rnd (price * Swap.toF rnd quoteOracle)
  let factor := rnd (1 + band)
  match side with
  | .bid => require (rnd (dollars * factor) ≥ bo) .someError
  | .ask => require (dollars ≤ rnd (bo * factor)) .someError

/-- one account in one market: banks, positions, order data, open orders account, liquidation flags, health cache; vault balances -/
structure Acct where
  baseBank : BankIn
  quoteBank : BankIn
  basePos : TokenPosition
  quotePos : TokenPosition
  orders : Orders
  oo : OO
  baseVault : Int
  quoteVault : Int

/-- cache.rs:1193-1221 `total_serum3_potential` -/
def totalPotential (fd : FDiv) (c : Cache) (h : HT) (ti : Nat) : Res I80F48 :=
  match c.tokenIdx ti with
  | none => .error .tokenPositionDoesNotExist
  | some k =>
    sumM (fun s => do
      (if s.quoteIdx = k then do
        let q ← Serum3Info.at_ c.tokens s.quoteIdx
        let b ← Serum3Info.at_ c.tokens s.baseIdx
        s.allReservedAsQuote fd h q b
       else if s.baseIdx = k then do
        let q ← Serum3Info.at_ c.tokens s.quoteIdx
        let b ← Serum3Info.at_ c.tokens s.baseIdx
        s.allReservedAsBase fd h q b
       else .ok 0)) 0 c.serums

/-- 138-156: which version of the instruction runs -/
def version (requireV2 v1Enabled v2Enabled writable : Bool) : Res Bool :=
  if requireV2 || !v1Enabled || (writable && v2Enabled) then do
    require (v2Enabled = true) .someError
    require (writable = true) .someError
    .ok true
  else do
    require (v1Enabled = true) .someError
    .ok false

/-- arguments of the instruction and configuration it reads -/
structure PlaceArgs where
  side : Side
  lots : Int
  maxBase : Int
  maxQuote : Int
  /-- lot sizes of the market -/
  baseLot : Int
  quoteLot : Int
  marketReduceOnly : Bool := false
  /-- `oracle_price_band()`; `none` for f32::MAX -/
  band : Option ℚ := none
  v2 : Bool
  now : Int
  /-- `health_cache.serum3_infos` must contain these markets: those of the account that trade the receiver token -/
  receiverMarkets : List Nat := []

/-- what the open orders account had before, from its slot bits, and what the dex did -/
structure PlaceDex where
  hadBids : Bool
  hadAsks : Bool
  oo : OO
  /-- payer vault balance -/
  vault : Int
  onBook : Bool

/-- payer bank checks, 343-373 -/
def payerChecks (b : BankIn) (withdrawn : Int) (before : I80F48) : Res Unit :=
  if ofInt withdrawn > before then do
    require (b.bank.areBorrowsReduceOnly = false) .tokenInReduceOnlyMode
    b.bank.enforceMaxUtilizationOnBorrow
    b.bank.checkNetBorrows b.oracle
    b.bank.checkDepositAndOoLimit
  else b.bank.enforceBorrowsLteDeposits

/-- 166-187: the vault must be able to pay -/
def vaultCovers (a : Acct) (x : PlaceArgs) : Res Unit :=
  match x.side with
  | .ask => do
    let q ← cku64 (x.maxBase * x.baseLot)
    require (¬ a.baseVault < max 0 (q - a.oo.baseFree)) .someError
  | .bid => require (¬ a.quoteVault < max 0 (x.maxQuote - a.oo.quoteFree)) .someError

/-- 222-333: what follows the call into the dex, up to the limit checks: prices, potential tokens, the position of the payer token. Also the payer's balance before and its change. -/
def placeBook (rnd : ℚ → ℚ) (a : Acct) (x : PlaceArgs) (d : PlaceDex) : Res (Acct × I80F48 × I80F48) := do
  let price := limitPrice rnd x.lots x.baseLot x.quoteLot
  let s := trackPrices rnd a.orders d.hadBids d.hadAsks d.onBook x.side price
  match x.side with
  | .bid => do
    require (a.quoteVault ≥ d.vault) .requireFailed
    let (s, bb, qb) ← updatePotential rnd s (if x.v2 then some a.baseBank.bank else none) (some a.quoteBank.bank) d.oo
    let qb := qb.getD a.quoteBank.bank
    let before ← a.quotePos.native qb
    let (qb, qp, br, change) ← vaultDifference qb a.quotePos s.quoteBorrows d.vault a.quoteVault x.now
    .ok ({ a with baseBank := { a.baseBank with bank := bb.getD a.baseBank.bank }, quoteBank := { a.quoteBank with bank := qb }, quotePos := qp,
                  orders := { s with quoteBorrows := br }, oo := d.oo, quoteVault := d.vault }, before, change)
  | .ask => do
    require (a.baseVault ≥ d.vault) .requireFailed
    let (s, bb, qb) ← updatePotential rnd s (some a.baseBank.bank) (if x.v2 then some a.quoteBank.bank else none) d.oo
    let bb := bb.getD a.baseBank.bank
    let before ← a.basePos.native bb
    let (bb, bp, br, change) ← vaultDifference bb a.basePos s.baseBorrows d.vault a.baseVault x.now
    .ok ({ a with baseBank := { a.baseBank with bank := bb }, quoteBank := { a.quoteBank with bank := qb.getD a.quoteBank.bank }, basePos := bp,
                  orders := { s with baseBorrows := br }, oo := d.oo, baseVault := d.vault }, before, change)

/-- 335-396: limits -/
def placeLimits (rnd : ℚ → ℚ) (a a' : Acct) (x : PlaceArgs) (d : PlaceDex) (before : I80F48) : Res Unit := do
  let (payer, receiver) := match x.side with
    | .bid => (a'.quoteBank, a'.baseBank)
    | .ask => (a'.baseBank, a'.quoteBank)
  receiver.bank.checkDepositAndOoLimit
  payerChecks payer (match x.side with | .bid => a.quoteVault - d.vault | .ask => a.baseVault - d.vault) before
  match x.band with
  | some band => if d.onBook then checkBand rnd x.side band (limitPrice rnd x.lots x.baseLot x.quoteLot) a'.baseBank.oracle a'.quoteBank.oracle else .ok ()
  | none => .ok ()

/-- 398-423: update the health cache: the receiver's weights, the payer's balance, the market -/
def placeCache (rnd : ℚ → ℚ) (c : Cache) (a a' : Acct) (x : PlaceArgs) (change : I80F48) : Res Cache := do
  let (pt, payer, rt, receiver) := match x.side with
    | .bid => (a.orders.quote, a'.quoteBank, a.orders.base, a'.baseBank)
    | .ask => (a.orders.base, a'.baseBank, a.orders.quote, a'.quoteBank)
  let c ← c.adjustBank rnd rt receiver 0
  let c ← c.adjustBank rnd pt payer change
  let o ← view a'.orders a'.oo
  let db ← Fx.sub (ofInt a'.oo.baseFree) (ofInt a.oo.baseFree)
  let dq ← Fx.sub (ofInt a'.oo.quoteFree) (ofInt a.oo.quoteFree)
  c.recomputeSerum3 o db dq

/-- 425-454: reduce-only check of the receiver token -/
def receiverReduceOnly (fd : FDiv) (c : Cache) (a : Acct) (x : PlaceArgs) : Res Unit := do
  require (∀ m ∈ x.receiverMarkets, ∃ s ∈ c.serums, s.marketIndex = m) .someError
  let (rt, receiver) := match x.side with
    | .bid => (a.orders.base, a.baseBank)
    | .ask => (a.orders.quote, a.quoteBank)
  if receiver.bank.areDepositsReduceOnly = true then do
    match c.tokenIdx rt with
    | none => .error .tokenPositionDoesNotExist
    | some k => do
      let t ← Serum3Info.at_ c.tokens k
      let p ← totalPotential fd c .maint rt
      let b ← Fx.add t.balanceSpot p
      require (b < ONE) .tokenInReduceOnlyMode
  else .ok ()

/-- serum3_place_order.rs:19-464. `c` is the health cache at the start, `flag` the account's liquidation flags; `inRegion`: inside a health region, no health checks. The two tokens must be in the cache. -/
def placeOrder (rnd : ℚ → ℚ) (fd : FDiv) (inRegion : Bool) (c : Cache) (flag : Account.Liq) (a : Acct) (x : PlaceArgs) (d : PlaceDex) : Res (Acct × Account.Liq × Cache) := do
  require (x.lots > 0) .requireFailed
  require (x.marketReduceOnly = false) .someError
  require ((c.tokenIdx a.orders.base).isSome ∧ (c.tokenIdx a.orders.quote).isSome) .tokenPositionDoesNotExist
  let (flag, pre) ← (if inRegion then .ok (flag, none) else do
    let h ← c.health fd .init
    let f ← flag.checkPre h (c.health fd .liqEnd)
    .ok (f, some h))
  vaultCovers a x
  let (a', before, change) ← placeBook rnd a x d
  placeLimits rnd a a' x d before
  let c' ← placeCache rnd c a a' x change
  receiverReduceOnly fd c' a x
  match pre with
  | some h => do
    let post ← c'.health fd .init
    Account.checkPost h post
    .ok (a', flag, c')
  | none => .ok (a', flag, c')

/-- serum3_settle_funds.rs:69-89 / liq_force_cancel 80-101: fees for loans that left the open orders account -/
def chargeFees (a : Acct) (now : Int) : Res Acct := do
  let (bb, bp, bbr, _) ← chargeLoan a.baseBank.bank a.basePos a.orders.baseBorrows a.oo.baseTotal now
  let (qb, qp, qbr, _) ← chargeLoan a.quoteBank.bank a.quotePos a.orders.quoteBorrows a.oo.quoteTotal now
  .ok { a with baseBank := { a.baseBank with bank := bb }, quoteBank := { a.quoteBank with bank := qb }, basePos := bp, quotePos := qp,
               orders := { a.orders with baseBorrows := bbr, quoteBorrows := qbr } }

/-- serum3_place_order.rs:585-671 `apply_settle_changes` without the health cache; also the native changes of the two balances. `priceBB`: price at which fees are credited for buyback (with
expiry interval), if the quote oracle is passed -/
def applySettle (rnd : ℚ → ℚ) (a : Acct) (bb : Buyback.BB) (feesToDao : Bool) (priceBB : Option (I80F48 × Int)) (after : OO) (afterBase afterQuote now : Int) :
    Res (Acct × Buyback.BB × I80F48 × I80F48) := do
  let fees := if feesToDao then max 0 (a.oo.rebates - after.rebates) else 0
  let cf ← (if feesToDao then Fx.add a.quoteBank.bank.collectedFeesNative (ofInt fees) else .ok a.quoteBank.bank.collectedFeesNative)
  let bb ← (if feesToDao then
      match priceBB with
      | some (price, interval) => do
        let bb ← Buyback.expire bb now interval
        let usd ← Fx.mul (ofInt fees) price
        .ok (Buyback.accrue bb (Fx.clampToU64 usd))
      | none => .ok bb
    else .ok bb)
  let quoteAdjusted ← cku64 (afterQuote - fees)
  require (afterBase ≥ a.baseVault) .requireFailed
  require (quoteAdjusted ≥ a.quoteVault) .requireFailed
  let (b1, p1, br1, c1) ← vaultDifference a.baseBank.bank a.basePos a.orders.baseBorrows afterBase a.baseVault now
  let (b2, p2, br2, c2) ← vaultDifference { a.quoteBank.bank with collectedFeesNative := cf } a.quotePos a.orders.quoteBorrows quoteAdjusted a.quoteVault now
  let (s, b1', b2') ← updatePotential rnd { a.orders with baseBorrows := br1, quoteBorrows := br2 } (some b1) (some b2) after
  .ok ({ a with baseBank := { a.baseBank with bank := b1'.getD b1 }, quoteBank := { a.quoteBank with bank := b2'.getD b2 }, basePos := p1, quotePos := p2, orders := s, oo := after,
                baseVault := afterBase, quoteVault := afterQuote }, bb, c1, c2)

/-- serum3_settle_funds.rs:21-142 -/
def settleFunds (rnd : ℚ → ℚ) (a : Acct) (bb : Buyback.BB) (feesToDao : Bool) (priceBB : Option (I80F48 × Int)) (after : OO) (afterBase afterQuote now : Int) : Res (Acct × Buyback.BB) := do
  let a ← chargeFees a now
  let (a, bb, _, _) ← applySettle rnd a bb feesToDao priceBB after afterBase afterQuote now
  .ok (a, bb)

/-- serum3_liq_force_cancel_orders.rs:12-170. `c` is the health cache at the start; its maintenance and liquidation-end healths decide whether the account is liquidatable. `none`: nothing is done -/
def forceCancel (rnd : ℚ → ℚ) (fd : FDiv) (c : Cache) (flag : Account.Liq) (frozen marketForceClose : Bool) (a : Acct) (bb : Buyback.BB) (after : OO) (afterBase afterQuote now : Int) :
    Res (Account.Liq × Option (Acct × Cache)) := do
  let (flag, st) ← flag.checkLiquidatable (c.health fd .maint) (c.health fd .liqEnd)
  if ¬ (frozen = true ∨ st = .liquidatable ∨ marketForceClose = true) then .ok (flag, none)
  else do
    let a1 ← chargeFees a now
    let (a2, _, c1, c2) ← applySettle rnd a1 bb true none after afterBase afterQuote now
    let c ← c.adjustBank rnd a.orders.base a2.baseBank c1
    let c ← c.adjustBank rnd a.orders.quote a2.quoteBank c2
    let o ← view a2.orders a2.oo
    let db ← Fx.sub (ofInt after.baseFree) (ofInt a.oo.baseFree)
    let dq ← Fx.sub (ofInt after.quoteFree) (ofInt a.oo.quoteFree)
    let c ← c.recomputeSerum3 o db dq
    let h ← c.health fd .liqEnd
    .ok ((flag.maybeRecover h).1, some (a2, c))

end Serum
end Mango
