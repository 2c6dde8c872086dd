import Verif.Props.PerpExposure
import Verif.Props.PerpForceClose
import Verif.Props.WalletEx
/-!
# Concrete cases for C68 and C69, and a forced close that turns a flat account short
-/
namespace Mango
namespace PerpOrder
open Fx Perp Health Book
open Serum (got isOk got_eq)

/-- the market: base assets 4/5 and 9/10, base liabilities 6/5 and 11/10, in which accounts 0 and 1 are 10 long and 10 short -/
def exM : Market :=
  { txMk with maintBaseAssetWeight := S / 10 * 9, initBaseAssetWeight := S / 5 * 4, maintBaseLiabWeight := S / 10 * 11, initBaseLiabWeight := S / 5 * 6, stablePrice := 100 * S, impactQuantity := 1,
              minFunding := -S / 20, maxFunding := S / 20 }
def exOps (m : Market) : List POp :=
  [.create 4, .create 2, txPlace 0 (txLimit .bid 10 100 11), txPlace 1 (txLimit .ask 10 100 12), .consume 8 [0, 1], txPlace 0 (txLimit .ask 3 105 13), .market m]
def exS : PSys := txRun (exOps exM)
def exRo : PSys := txRun (exOps { exM with reduceOnly := true })

theorem exReach (m : Market) : Reachable (txRun (exOps m)) := by
  apply txReach
  · intro op hop
    simp only [exOps, List.mem_cons, List.not_mem_nil, or_false] at hop
    rcases hop with rfl | rfl | rfl | rfl | rfl | rfl | rfl
    · exact True.intro
    · exact True.intro
    · exact txPlace_typed _ _ _ _ _ (by omega)
    · exact txPlace_typed _ _ _ _ _ (by omega)
    · exact True.intro
    · exact txPlace_typed _ _ _ _ _ (by omega)
    · exact True.intro
  · simp [exOps]

/-- 400 of the settle token besides the perp position -/
def exRest (n : Int) : Rest := { banks := Wallet.exBanks, ps := [⟨0, n * S⟩, ⟨1, 20 * S⟩], os := [], flag := ⟨false⟩ }
def exEnv : Env := { rnd := id, fd := Fx.div, now := 3600, price := 100 * S, stable := 100 * S }
def exOut (s : PSys) (u : Nat) (n : Int) (o : Order) : Res (PSys × Rest × Option Nat) := place exEnv s u (exRest n) o 10 true

/-- base lots with pending fills, open bids, open asks -/
def shape (p : Perp.Pos) : Int × Int × Int := (effective p, p.bids, p.asks)

theorem exShape : shape (pget exS.accts 0) = (10, 0, 3) ∧ shape (pget exS.accts 1) = (-10, 0, 0) ∧ shape (pget exRo.accts 0) = (10, 0, 3) := by decide +kernel

/-- account 1 buys 5 at 105: 3 are bought at once, 2 are posted, in both markets -/
def exBuy : Res (PSys × Rest × Option Nat) := exOut exRo 1 400 (txLimit .bid 5 105 20)
def exBuyS : PSys := (got (exRo, exRest 400, none) exBuy).1
def exBuyT : Rest := (got (exRo, exRest 400, none) exBuy).2.1
def exBuyR : Option Nat := (got (exRo, exRest 400, none) exBuy).2.2
theorem exRoReach : Reachable exRo := exReach _
theorem exBuy_ok : place exEnv exRo 1 (exRest 400) (txLimit .bid 5 105 20) 10 true = .ok (exBuyS, exBuyT, exBuyR) := got_eq (by decide +kernel)

/-- **C68, cases.** In the reduce-only market buying 15 is refused for the account short 10, and cut to 10 if the order is marked reduce-only; in the other market as well. Account 0 (long 10, 3 offered) can offer 7 more in the
reduce-only market, 10 more in the other. It cannot buy in the reduce-only market. An order that health does not allow is refused. -/
theorem exCases :
    shape (pget exBuyS.accts 1) = (-7, 2, 0) ∧
    isOk (exOut exRo 1 400 (txLimit .bid 15 105 20)) = false ∧
    (exOut exRo 1 400 { txLimit .bid 15 105 20 with reduceOnly := true }).toOption.any (fun x => decide (shape (pget x.1.accts 1) = (-7, 7, 0))) = true ∧
    (exOut exS 1 400 { txLimit .bid 15 105 20 with reduceOnly := true }).toOption.any (fun x => decide (shape (pget x.1.accts 1) = (-7, 7, 0))) = true ∧
    (exOut exRo 0 400 { txLimit .ask 15 105 20 with reduceOnly := true }).toOption.any (fun x => decide (shape (pget x.1.accts 0) = (10, 0, 10))) = true ∧
    (exOut exS 0 400 { txLimit .ask 15 105 20 with reduceOnly := true }).toOption.any (fun x => decide (shape (pget x.1.accts 0) = (10, 0, 13))) = true ∧
    isOk (exOut exRo 0 400 (txLimit .bid 1 50 20)) = false ∧
    isOk (exOut exS 0 400 (txLimit .bid 50 50 20)) = false ∧ isOk (exOut exS 0 4000 (txLimit .bid 50 50 20)) = true := by decide +kernel

theorem exTyped : (txLimit .bid 5 105 20).TypedArgs := txPlace_typed 1 .bid 5 105 20 (by omega)

-- the theorems apply to the case
example : |effective (pget exBuyS.accts 1)| ≤ |effective (pget exRo.accts 1)| := (C68_reduce_only exRoReach exTyped exBuy_ok (.inr (by decide +kernel))).1
example : effective (pget exBuyS.accts 1) + (pget exBuyS.accts 1).bids ≤ 0 := by decide +kernel
example := (C68_market_reduce_only exRoReach exTyped exBuy_ok (by decide +kernel)).2.2 (by decide +kernel)
example := C68_health exRoReach exTyped rfl exBuy_ok (by decide) ⟨by decide, by decide +kernel⟩
example := C68_is_step exBuy_ok
example := C68_only_owner exRoReach exTyped exBuy_ok

/-- what happens after, in the reduce-only market: everybody tries to trade more -/
def exMore : List POp :=
  [txPlace 0 (txLimit .ask 7 100 21), txPlace 1 (txLimit .bid 10 100 22), txPlace 1 (txLimit .bid 20 110 23), txPlace 0 (txLimit .ask 1 100 24), .create 4, txPlace 2 (txLimit .bid 3 110 25), .consume 8 [0, 1, 2],
    .cancelAll 0 8 none]
theorem exMore_typed : ∀ op ∈ exMore, op.Typed := by
  intro op hop
  simp only [exMore, List.mem_cons, List.not_mem_nil, or_false] at hop
  rcases hop with rfl | rfl | rfl | rfl | rfl | rfl | rfl | rfl
  · exact txPlace_typed _ _ _ _ _ (by omega)
  · exact txPlace_typed _ _ _ _ _ (by omega)
  · exact txPlace_typed _ _ _ _ _ (by omega)
  · exact txPlace_typed _ _ _ _ _ (by omega)
  · exact True.intro
  · exact txPlace_typed _ _ _ _ _ (by omega)
  · exact True.intro
  · exact True.intro
theorem exMore_allowed (u : Nat) : ∀ op ∈ exMore, Allowed u op := by
  intro op hop
  simp only [exMore, List.mem_cons, List.not_mem_nil, or_false] at hop
  rcases hop with rfl | rfl | rfl | rfl | rfl | rfl | rfl | rfl <;> exact True.intro

/-- **C68_exposure, a case.** The positions shrink from ±10 to ±3, with 3 lots of account 0 cancelled. -/
theorem exMore_run : (prun exRo exMore).accts.map (fun a => shape (posD a)) = [(3, 0, 0), (-3, 3, 0), (0, 0, 0)] ∧ exRo.market.reduceOnly = true := by decide +kernel
example := C68_exposure exRoReach (by decide +kernel) 1 exMore exMore_typed (exMore_allowed 1) (by decide +kernel)
example := C68_no_new exRoReach (by decide +kernel) 2 exMore exMore_typed (exMore_allowed 2) (by decide +kernel) (by decide +kernel)

end PerpOrder

namespace PerpForce
open Fx Perp Health PerpOrder
open Serum (got isOk got_eq)

/-- account 0 is 10 long, account 1 is 4 short, account 2 is 6 short; the market is closed by force -/
def exOps : List POp :=
  [.create 4, .create 2, .create 2, txPlace 0 (txLimit .bid 10 100 11), txPlace 1 (txLimit .ask 4 100 12), txPlace 2 (txLimit .ask 6 100 13), .consume 8 [0, 1, 2], .market { exM with forceClose := true }]
def exS : PSys := txRun exOps
def exR : PSys := got exS (pstep exS (.forceClose 0 1 (90 * S)))
theorem exR_ok : pstep exS (.forceClose 0 1 (90 * S)) = .ok exR := got_eq (by decide +kernel)

/-- **C69, a case.** 4 lots are closed at 90; a second time there is no short position left; in the other order of accounts it fails. -/
theorem exR_run : exS.accts.map (fun a => (posD a).base) = [10, -4, -6] ∧ exR.accts.map (fun a => (posD a).base) = [6, 0, -6] ∧ exS.market.openInterest = 20 ∧ exR.market.openInterest = 12 ∧
    (pget exR.accts 0).quote - (pget exS.accts 0).quote = 360 * S ∧ isOk (pstep exR (.forceClose 0 1 (90 * S))) = false ∧ isOk (pstep exS (.forceClose 1 0 (90 * S))) = false ∧
    isOk (pstep (txRun (exOps.dropLast)) (.forceClose 0 1 (90 * S))) = false := by decide +kernel

example := C69_no_flip exR_ok
theorem exW : WeightsOk exS.market := by constructor <;> decide +kernel
theorem exIdle : Idle exS.market (pget exS.accts 0) := by constructor <;> decide +kernel
def exInfo : PerpInfo := got ⟨0, 0, 0, 0, 0, 0, 0, 0, 0, 0, 0, 0, 0, ⟨0, 0⟩, false, false⟩ (perpInfoOf exS.market (pget exS.accts 0) (90 * S))
def exInfo' : PerpInfo := got exInfo (perpInfoOf exR.market (pget exR.accts 0) (90 * S))
theorem exInfo_ok : perpInfoOf exS.market (pget exS.accts 0) (90 * S) = .ok exInfo ∧ perpInfoOf exR.market (pget exR.accts 0) (90 * S) = .ok exInfo' := ⟨got_eq (by decide +kernel), got_eq (by decide +kernel)⟩
example := C69_pnl exR_ok exW (by decide) (.inl rfl) exIdle exInfo_ok.1 exInfo_ok.2 .maint

/-- the account with 500 of the settle token -/
def exC : Cache :=
  { tokens := [{ tokenIndex := 0, maintAssetWeight := S, initAssetWeight := S, initScaledAssetWeight := S, maintLiabWeight := S, initLiabWeight := S, initScaledLiabWeight := S, prices := ⟨S, S⟩, balanceSpot := 500 * S }],
    perps := [exInfo] }
theorem exC_health : ∃ v v', exC.health Fx.div .init = .ok v ∧ ({ exC with perps := exC.perps.set 0 exInfo' } : Cache).health Fx.div .init = .ok v' ∧ v < v' := by
  have h1 : isOk (exC.health Fx.div .init) = true := by decide +kernel
  have h2 : isOk (({ exC with perps := exC.perps.set 0 exInfo' } : Cache).health Fx.div .init) = true := by decide +kernel
  refine ⟨got 0 (exC.health Fx.div .init), got 0 (({ exC with perps := exC.perps.set 0 exInfo' } : Cache).health Fx.div .init), got_eq h1, got_eq h2, by decide +kernel⟩

/-- **Finding (C69).** Forced closing looks only at settled lots. Account 0 is 10 long, and has just sold 10, with the fill still pending: it is flat. Closing it by force takes the 10 lots; when the fill is processed it is 10
short. -/
def exPend : List POp :=
  [.create 4, .create 2, .create 2, txPlace 0 (txLimit .bid 10 100 11), txPlace 1 (txLimit .ask 10 100 12), .consume 8 [0, 1, 2], txPlace 2 (txLimit .bid 10 100 13), txPlace 0 (txLimit .ask 10 100 14),
    .market { exM with forceClose := true, reduceOnly := true }]
theorem C69_flat_becomes_short :
    effective (pget (txRun exPend).accts 0) = 0 ∧ effective (pget (txRun (exPend ++ [.forceClose 0 1 (100 * S)])).accts 0) = -10 ∧
    (txRun (exPend ++ [.forceClose 0 1 (100 * S), .consume 8 [0, 1, 2]])).accts.map (fun a => (posD a).base) = [-10, 0, 10] ∧
    (txRun (exPend ++ [.consume 8 [0, 1, 2]])).accts.map (fun a => (posD a).base) = [0, -10, 10] := by decide +kernel

end PerpForce
end Mango
