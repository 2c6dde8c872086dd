import Verif.Health.FromState
import Verif.Bank.System
/-!
# Collateral fees

Models instructions/token_charge_collateral_fees.rs:12-209 and health/cache.rs:757-798. Account slots (deactivation of token positions) are in `Verif.Account.Slots`; logs and the fees reported
to clients are left out.
-/
namespace Mango
namespace Health
open Fx
namespace Cache

/-- cache.rs:757-798, one token: unweighted assets and liabs at the oracle price -/
def markToken (al : I80F48 × I80F48) (t : TokenInfo) : Res (I80F48 × I80F48) := do
  let v ← Fx.mul t.balanceSpot t.prices.oracle
  (if t.balanceSpot < 0 then do
    let l ← Fx.sub al.2 v
    .ok (al.1, l)
  else do
    let a ← Fx.add al.1 v
    .ok (a, al.2))

/-- one spot market -/
def markSerum (c : Cache) (al : I80F48 × I80F48) (s : Serum3Info) : Res (I80F48 × I80F48) := do
  let quote ← Serum3Info.at_ c.tokens s.quoteIdx
  let base ← Serum3Info.at_ c.tokens s.baseIdx
  let vb ← Fx.mul s.reservedBase base.prices.oracle
  let a ← Fx.add al.1 vb
  let vq ← Fx.mul s.reservedQuote quote.prices.oracle
  let a ← Fx.add a vq
  .ok (a, al.2)

/-- one perp market. The settle token is looked up by its index, used as a position in the list of the account's tokens (775). -/
def markPerp (c : Cache) (al : I80F48 × I80F48) (p : PerpInfo) : Res (I80F48 × I80F48) := do
  let settle ← Serum3Info.at_ c.tokens p.settleTokenIndex
  let qv ← Fx.mul p.quote settle.prices.oracle
  let al ← (if p.quote < 0 then do
      let l ← Fx.sub al.2 qv
      .ok (al.1, l)
    else do
      let a ← Fx.add al.1 qv
      .ok (a, al.2))
  let n ← ck64 (p.baseLots * p.baseLotSize)
  let x ← Fx.mul (ofInt n) p.basePrices.oracle
  let bv ← Fx.mul x settle.prices.oracle
  (if bv < 0 then do
    let l ← Fx.sub al.2 bv
    .ok (al.1, l)
  else do
    let a ← Fx.add al.1 bv
    .ok (a, al.2))

/-- sum over a list that can fail -/
def foldRes {α β : Type} (f : β → α → Res β) : β → List α → Res β
  | b, [] => .ok b
  | b, a :: as => do
    let b ← f b a
    foldRes f b as

/-- cache.rs:757-798 `assets_and_liabs` -/
def markedToMarket (c : Cache) : Res (I80F48 × I80F48) := do
  let al ← foldRes markToken (0, 0) c.tokens
  let al ← foldRes (markSerum c) al c.serums
  foldRes (markPerp c) al c.perps

end Cache
end Health

namespace Collateral
open Fx Health

/-- one token position of the account with its bank; `rate` is `collateral_fee_per_day`, `collected` is `collected_collateral_fees` -/
structure Item where
  token : Nat
  bank : Bank
  rate : ℚ
  collected : I80F48
  pos : TokenPosition

/-- 40-63: when is a charge due, and for how many seconds. `last` is `last_collateral_fee_charge`. Returns its new value -/
def due (interval last now : Int) : Res (Int × Option Int) :=
  if interval = 0 then .ok (0, none)
  else if last = 0 then .ok (now, none)
  else do
    let next ← cku64 (last + interval)
    (if now < next then .ok (last, none)
    else do
      let d ← cku64 (now - last)
      let m ← cku64 (2 * interval)
      .ok (now, some (min d m)))

/-- 67: `I80F48::from_num(1.157407407407e-5)` -/
def INV_DAY : I80F48 := 3257812230

/-- 94-97: reserved spot funds are added back to the balances -/
def addReserved (bs : List I80F48) (s : Serum3Info) : Res (List I80F48) := do
  let b ← Serum3Info.at_ bs s.baseIdx
  let b ← Fx.add b s.reservedBase
  let bs := bs.set s.baseIdx b
  let q ← Serum3Info.at_ bs s.quoteIdx
  let q ← Fx.add q s.reservedQuote
  .ok (bs.set s.quoteIdx q)

/-- 93-97 -/
def balances (c : Cache) : Res (List I80F48) := do
  let bs ← c.balances .maint
  Cache.foldRes addReserved bs c.serums

/-- 101-108, one token: total asset health and total liab health -/
def addHealth (al : I80F48 × I80F48) (x : TokenInfo × I80F48) : Res (I80F48 × I80F48) := do
  let h ← x.1.contribution .maint x.2
  (if h > 0 then do
    let a ← Fx.add al.1 h
    .ok (a, al.2)
  else do
    let l ← Fx.sub al.2 h
    .ok (al.1, l))

/-- lookup of a bank's token in the cache -/
def lookup (c : Cache) (bs : List I80F48) (ti : Nat) : Res (TokenInfo × I80F48) :=
  match c.tokenIdx ti with
  | none => .error .tokenPositionDoesNotExist
  | some i => do
    let t ← Serum3Info.at_ c.tokens i
    let b ← Serum3Info.at_ bs i
    .ok (t, b)

/-- 126-160, one bank: fee on an asset, in native tokens; 0 if none is charged -/
def assetFee (c : Cache) (bs : List I80F48) (scaling : I80F48) (x : Item) : Res I80F48 :=
  if x.rate ≤ 0 ∨ x.bank.maintAssetWeight = 0 then .ok 0
  else do
    let (_, b) ← lookup c bs x.token
    (if b ≤ 0 then .ok 0
    else do
      let y ← Fx.mul b scaling
      let r ← Swap.toFx x.rate
      let fee ← Fx.mul y r
      require (fee ≤ b) .panic
      .ok fee)

/-- 126-160: the fees on all assets are added up in quote; what each bank would get is remembered -/
def assetFees (c : Cache) (bs : List I80F48) (scaling : I80F48) : I80F48 → List Item → Res (I80F48 × List Item)
  | total, [] => .ok (total, [])
  | total, x :: xs => do
    let fee ← assetFee c bs scaling x
    let (t, _) ← lookup c bs x.token
    let v ← Fx.mul fee t.prices.oracle
    let total ← Fx.add total v
    let collected ← Fx.add x.collected fee
    let (total, ys) ← assetFees c bs scaling total xs
    .ok (total, { x with collected := collected } :: ys)

/-- 162-205, one bank: its share of the fees is borrowed -/
def liabFee (c : Cache) (bs : List I80F48) (liabHealth total now : Int) (x : Item) : Res (Item × I80F48) := do
  let (t, b) ← lookup c bs x.token
  let h ← t.contribution .maint b
  (if h ≥ 0 then .ok (x, 0)
  else do
    let q ← Fx.div h liabHealth
    let share ← Fx.abs q
    let y ← Fx.mul share total
    let fee ← Fx.div y t.prices.oracle
    let (b1, p1, _) ← x.bank.withdrawWithoutFee x.pos fee now
    let f ← Fx.add b1.collectedFeesNative fee
    .ok ({ x with bank := { b1 with collectedFeesNative := f }, pos := p1 }, fee))

/-- what was charged -/
structure Report where
  seconds : Int
  assetHealth : I80F48
  liabHealth : I80F48
  /-- all fees, in native quote -/
  total : I80F48
  /-- fee borrowed in each token -/
  fees : List I80F48

/-- 162-205 -/
def liabFees (c : Cache) (bs : List I80F48) (liabHealth total now : Int) : List Item → Res (List Item × List I80F48)
  | [] => .ok ([], [])
  | x :: xs => do
    let (y, f) ← liabFee c bs liabHealth total now x
    let (ys, fs) ← liabFees c bs liabHealth total now xs
    .ok (y :: ys, f :: fs)

/-- 85-120: usage of the assets, if the account is to be charged at all -/
def usage (c : Cache) (bs : List I80F48) : Res (Option (I80F48 × I80F48 × I80F48)) := do
  let (_, liabs) ← c.markedToMarket
  (if liabs < ofInt 100000000 then .ok none
  else do
    let (a, l) ← Cache.foldRes addHealth (0, 0) (c.tokens.zip bs)
    (if a = 0 ∨ l = 0 then .ok none
    else do
      let q ← Fx.div l a
      .ok (some (a, l, min (max q 0) ONE))))

/-- 66-205: a due charge -/
def charge (c : Cache) (seconds now : Int) (xs : List Item) : Res (List Item × Option Report) := do
  let time ← Fx.mul (ofInt seconds) INV_DAY
  let bs ← balances c
  match ← usage c bs with
  | none => .ok (xs, none)
  | some (a, l, u) => do
    let scaling ← Fx.mul u time
    let (total, ys) ← assetFees c bs scaling 0 xs
    let (zs, fees) ← liabFees c bs l total now ys
    .ok (zs, some ⟨seconds, a, l, total, fees⟩)

/-- 25-209. `c` is the account's health cache, built from `xs` and the rest of the account -/
def chargeCollateralFees (c : Cache) (interval last now : Int) (xs : List Item) : Res (Int × List Item × Option Report) := do
  let (last, s) ← due interval last now
  match s with
  | none => .ok (last, xs, none)
  | some seconds => do
    let (ys, r) ← charge c seconds now xs
    .ok (last, ys, r)

end Collateral
end Mango
