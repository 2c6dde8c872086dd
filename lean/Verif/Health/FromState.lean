import Verif.Health.Build
import Verif.Bank.Model
import Verif.Perp.Types
import Verif.Tcs.Lemmas
/-!
# Health from banks, markets and positions

Models where the inputs of the health cache come from: bank.rs:1227-1265 (scaled init weights), cache.rs:1316-1345 (token infos) and 463-496 (`PerpInfo::new`), and the
whole of `new_health_cache` followed by `health`. The f64 operations are rational operations followed by `rnd`, as in `Verif.Tcs.Model`.
-/
namespace Mango
namespace Health
open Fx

/-- `f64::MAX`, the value that turns the scaling of weights off -/
def F64MAX : ℚ := (2 ^ 53 - 1) * 2 ^ 971

/-- a bank as health sees it: the bank, the two f64 fields not in `Bank`, the oracle price the retriever gives, whether the retriever fails (bank not passed, oracle
stale or not confident), `allows_asset_liquidation()` -/
structure BankIn where
  bank : Bank
  depositScaleStart : ℚ := F64MAX
  borrowScaleStart : ℚ := F64MAX
  oracle : I80F48
  bad : Bool := false
  allowAssetLiquidation : Bool := true

/-- bank.rs:1232-1247 `scaled_init_asset_weight`. A start of at most 0 (excluded by `verify`, bank.rs:410) could divide by zero. -/
def BankIn.scaledAsset (rnd : ℚ → ℚ) (b : BankIn) (price : I80F48) : Res I80F48 :=
  if b.depositScaleStart = F64MAX then .ok b.bank.initAssetWeight
  else do
    let nd ← b.bank.nativeDeposits
    let all := rnd (Swap.toF rnd nd + rnd b.bank.potentialSerumTokens)
    let dq := rnd (all * Swap.toF rnd price)
    (if dq ≤ b.depositScaleStart then .ok b.bank.initAssetWeight
     else do
      let scale ← Swap.toFx (rnd (b.depositScaleStart / dq))
      Fx.mul b.bank.initAssetWeight scale)

/-- bank.rs:1250-1265 `scaled_init_liab_weight` -/
def BankIn.scaledLiab (rnd : ℚ → ℚ) (b : BankIn) (price : I80F48) : Res I80F48 :=
  if b.borrowScaleStart = F64MAX then .ok b.bank.initLiabWeight
  else do
    let nb ← b.bank.nativeBorrows
    let bq := rnd (Swap.toF rnd nb * Swap.toF rnd price)
    (if bq ≤ b.borrowScaleStart then .ok b.bank.initLiabWeight
     else if b.borrowScaleStart = 0 then .ok Fx.MAX
     else do
      let scale ← Swap.toFx (rnd (bq / b.borrowScaleStart))
      Fx.mul b.bank.initLiabWeight scale)

/-- cache.rs:1317-1345: everything of the token info but the balance -/
def BankIn.view (rnd : ℚ → ℚ) (now : Int) (ti : Nat) (b : BankIn) : Res View := do
  let prices : Prices := ⟨b.oracle, b.bank.stablePrice⟩
  let (ma, ml) ← b.bank.maintWeights now
  let sa ← b.scaledAsset rnd (prices.liab .init)
  let sl ← b.scaledLiab rnd (prices.liab .init)
  .ok { info := { tokenIndex := ti, maintAssetWeight := ma, initAssetWeight := b.bank.initAssetWeight, initScaledAssetWeight := sa,
                  maintLiabWeight := ml, initLiabWeight := b.bank.initLiabWeight, initScaledLiabWeight := sl, prices := prices, balanceSpot := 0,
                  allowAssetLiquidation := b.allowAssetLiquidation }
        depositIndex := b.bank.depositIndex
        borrowIndex := b.bank.borrowIndex
        bad := b.bad }

/-- cache.rs:463-496 `PerpInfo::new` -/
def perpInfoOf (m : Perp.Market) (p : Perp.Pos) (oracle : I80F48) : Res PerpInfo := do
  let lots ← ck64 (p.base + p.takerBase)
  let uf ← p.unsettledFunding m
  let tq ← ck64 (p.takerQuote * m.quoteLotSize)
  let q ← Fx.sub p.quote uf
  let q ← Fx.add q (Fx.ofInt tq)
  .ok { perpMarketIndex := m.idx, settleTokenIndex := m.settleTokenIndex, maintBaseAssetWeight := m.maintBaseAssetWeight,
        initBaseAssetWeight := m.initBaseAssetWeight, maintBaseLiabWeight := m.maintBaseLiabWeight, initBaseLiabWeight := m.initBaseLiabWeight,
        maintOverallAssetWeight := m.maintOverallAssetWeight, initOverallAssetWeight := m.initOverallAssetWeight, baseLotSize := m.baseLotSize,
        baseLots := lots, bidsBaseLots := p.bids, asksBaseLots := p.asks, quote := q, basePrices := ⟨oracle, m.stablePrice⟩,
        hasOpenOrders := decide (p.asks ≠ 0 ∨ p.bids ≠ 0), hasOpenFills := decide (p.takerBase ≠ 0 ∨ p.takerQuote ≠ 0) }

/-- results of a list of computations -/
def mapRes {α β : Type} (f : α → Res β) : List α → Res (List β)
  | [] => .ok []
  | a :: as => do
    let b ← f a
    let bs ← mapRes f as
    .ok (b :: bs)

def emptyView : View :=
  { info := { tokenIndex := 0, maintAssetWeight := 0, initAssetWeight := 0, initScaledAssetWeight := 0, maintLiabWeight := 0, initLiabWeight := 0, initScaledLiabWeight := 0,
              prices := ⟨0, 0⟩, balanceSpot := 0 }, depositIndex := 0, borrowIndex := 0, bad := true }

def viewVal (v : Res View) : View :=
  match v with
  | .ok v => v
  | .error _ => emptyView

/-- cache.rs:1238-1244, 1263-1430 `new_health_cache` (no bank may be left out). All bank data is computed first here; the code computes it position by position, so only which of several
errors is reported can differ. -/
def accountCache (rnd : ℚ → ℚ) (now : Int) (banks : Nat → BankIn) (ps : List Pos) (os : List OpenOrd) (perps : List (Perp.Market × Perp.Pos × I80F48)) : Res Cache := do
  let _ ← mapRes (fun (p : Pos) => do
    require ((banks p.tokenIndex).bad = false) .invalidBank
    (banks p.tokenIndex).view rnd now p.tokenIndex) ps
  let pp ← mapRes (fun (x : Perp.Market × Perp.Pos × I80F48) => perpInfoOf x.1 x.2.1 x.2.2) perps
  buildCache (fun ti => viewVal ((banks ti).view rnd now ti)) false ps os pp

/-- cache.rs:108-115 `compute_health` -/
def accountHealth (rnd : ℚ → ℚ) (fd : FDiv) (now : Int) (banks : Nat → BankIn) (ps : List Pos) (os : List OpenOrd) (perps : List (Perp.Market × Perp.Pos × I80F48))
    (h : HT) : Res I80F48 := do
  let c ← accountCache rnd now banks ps os perps
  c.health fd h

end Health
end Mango
