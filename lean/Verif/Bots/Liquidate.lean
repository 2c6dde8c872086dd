import Verif.Liq.Phases
import Verif.Health.FromState
import Mathlib.Data.List.Sort
/-!
# What the liquidator does next

Models bin/liquidator/src/liquidate.rs: `LiquidateHelper::send_liq_tx` (591-667) with the functions that look for something to do (47-138, 140-330, 339-357, 386-589): which instruction, on which
market or tokens. The health cache is the one the program's code builds (`Verif.Health.FromState`). Not modelled: the amounts (max transfers by the liquidator's own health; see C75), building, sending
and confirming transactions. Random choices are parameters. That prices are fetched again for each candidate is left out: they are those of the cache.
-/
namespace Mango
namespace Liquidator
open Fx Health

/-- liquidate.rs:19-34 `Config`, the parts that restrict what is liquidated -/
structure Cfg where
  onlyTokens : List Nat := []
  forbiddenTokens : List Nat := []
  onlyPerps : List Nat := []
  forbiddenPerps : List Nat := []
  /-- how many of a list of cancel instructions fit into one transaction (by compute units and size, 92-100) -/
  fits : List Nat → Nat := List.length

/-- random choices: `choose` (125), `shuffle` (74) -/
structure Rng where
  choose : List Nat → Nat
  shuffle : List Nat → List Nat

/-- the account that is to be liquidated, as fetched, and banks and prices -/
structure Liqee where
  banks : Nat → BankIn
  tokens : List Health.Pos
  orders : List OpenOrd
  perps : List (Perp.Market × Perp.Pos × I80F48)

/-- the instruction sent -/
inductive Act where
  | cancelPerp (market : Nat)
  | cancelSpot (markets : List Nat)
  | perpBase (market : Nat)
  | tokenLiq (asset liab : Nat)
  | perpNegative (market : Nat)
  | tokenBankruptcy (token : Nat)
  deriving DecidableEq, Repr

/-- result of an attempt: a transaction, waiting for fills, or giving up with an error message -/
inductive Out where
  | act (a : Act)
  | wait
  | bail
  deriving DecidableEq, Repr

/-- 114-124: markets with open perp orders -/
def perpOrderMarkets (l : Liqee) : List Nat := (l.perps.filter (fun x => x.2.1.asks ≠ 0 ∨ x.2.1.bids ≠ 0)).map (fun x => x.1.idx)

/-- 47-70: spot markets with open orders or unsettled funds -/
def spotOrderMarkets (l : Liqee) : List Nat := (l.orders.filter (fun o => o.hasZeroFunds = false)).map (·.marketIndex)

/-- 76-107: the markets whose orders are cancelled in one transaction -/
def cancelled (cfg : Cfg) (rng : Rng) (ms : List Nat) : List Nat := (rng.shuffle ms).take (cfg.fits (rng.shuffle ms))

/-- cache.rs:974-976 `has_phase1_liquidatable` -/
def phase1 (c : Cache) : Bool := decide (∃ s ∈ c.serums, s.hasZeroFunds = false) || decide (∃ p ∈ c.perps, p.hasOpenOrders = true)

/-- cache.rs:1005-1010 `has_phase2_liquidatable` -/
def phase2 (c : Cache) : Res Bool := do
  let sl ← c.hasPossibleSpotLiquidations
  .ok (sl || decide (∃ p ∈ c.perps, p.baseLots ≠ 0) || decide (∃ p ∈ c.perps, p.hasOpenFills = true) || decide (∃ p ∈ c.perps, p.baseLots = 0 ∧ p.quote > 0))

/-- cache.rs:934-941 `has_liq_spot_borrows` -/
def spotBorrows (c : Cache) : Res Bool := do
  let bs ← c.balances .liqEnd
  .ok (decide (∃ x ∈ c.tokens.zip bs, Cache.OwesToken x.1 x.2))

/-- cache.rs:1038-1048 `has_phase3_liquidatable`, `in_phase3_liquidation` -/
def inPhase3 (c : Cache) : Res Bool := do
  let p2 ← phase2 c
  let sb ← spotBorrows c
  .ok (!phase1 c && !p2 && (sb || decide (∃ p ∈ c.perps, p.baseLots = 0 ∧ p.quote < 0)))

/-- 144-162: the configuration allows the perp market -/
def perpAllowed (cfg : Cfg) (m : Nat) : Prop := m ∉ cfg.forbiddenPerps ∧ (cfg.onlyPerps = [] ∨ m ∈ cfg.onlyPerps)
instance (cfg : Cfg) (m : Nat) : Decidable (perpAllowed cfg m) := by unfold perpAllowed; infer_instance

/-- 164-168: something to take over, and no fills that are not processed -/
def perpTakeable (p : Perp.Pos) : Prop := ¬ ((p.base = 0 ∧ p.quote ≤ 0) ∨ (p.takerBase ≠ 0 ∨ p.takerQuote ≠ 0))
instance (p : Perp.Pos) : Decidable (perpTakeable p) := by unfold perpTakeable; infer_instance

/-- 140-186: candidates with their value (base lots times price) -/
def perpCandidates (cfg : Cfg) (l : Liqee) : Res (List (Nat × I80F48)) :=
  mapRes (fun (x : Perp.Market × Perp.Pos × I80F48) => do
    let v ← Fx.mul (Fx.ofInt (Int.natAbs x.2.1.base)) x.2.2
    .ok (x.1.idx, v)) (l.perps.filter (fun x => perpAllowed cfg x.1.idx ∧ perpTakeable x.2.1))

/-- 187-193: sort by value (stable), take the last -/
def perpBaseMarket (cfg : Cfg) (l : Liqee) : Res (Option Nat) := do
  let cs ← perpCandidates cfg l
  .ok ((cs.insertionSort (fun a b => a.2 ≤ b.2)).getLast?.map (·.1))

/-- a token that could be taken or repaid: 416-427 -/
structure Cand where
  index : Nat
  preferred : Bool
  value : I80F48
  deriving DecidableEq, Repr

/-- 393-404: tokens with balances. The list of tokens loses forbidden ones before it is paired with the list of balances, which does not. -/
def liqTokens (cfg : Cfg) (c : Cache) (bs : List I80F48) : List (TokenInfo × I80F48) :=
  (c.tokens.filter (fun t => t.tokenIndex ∉ cfg.forbiddenTokens)).zip bs

/-- some results only -/
def mapSome {α β : Type} (f : α → Res (Option β)) : List α → Res (List β)
  | [] => .ok []
  | a :: as => do
    let b ← f a
    let bs ← mapSome f as
    .ok (b.toList ++ bs)

/-- 416-427: assets; those with a weight and more than a dollar to take are preferred -/
def assetCand (x : TokenInfo × I80F48) : Res (Option Cand) := do
  let amount := min x.1.balanceSpot x.2
  let v ← Fx.mul amount x.1.prices.oracle
  .ok (if amount ≥ ONE ∧ x.1.allowAssetLiquidation = true then some ⟨x.1.tokenIndex, decide (x.1.maintAssetWeight > 0 ∧ v > 1000000 * ONE), v⟩ else none)

/-- 438-448: liabilities -/
def liabCand (x : TokenInfo × I80F48) : Res (Option Cand) := do
  let a ← Fx.neg x.1.balanceSpot
  let b ← Fx.neg x.2
  let v ← Fx.mul (min a b) x.1.prices.oracle
  .ok (if min a b > 0 then some ⟨x.1.tokenIndex, false, v⟩ else none)

/-- 430, 450 `Reverse((is_preferred, amount))`: preferred first, then larger value -/
def candBefore (a b : Cand) : Prop := (a.preferred = true ∧ b.preferred = false) ∨ (a.preferred = b.preferred ∧ b.value ≤ a.value)
instance : DecidableRel candBefore := fun a b => by unfold candBefore; infer_instance

/-- 456-482 `find_best_token`: the first, and the first that is on the list of allowed ones -/
def findBest (cfg : Cfg) (l : List Cand) : Option Nat × Option Nat :=
  let ok := (l.filter (fun x => x.index ∉ cfg.forbiddenTokens)).map (·.index)
  (ok.head?, ok.find? (fun i => cfg.onlyTokens = [] ∨ i ∈ cfg.onlyTokens))

/-- 487-494: at least one of the two is on the list -/
def bestPair (a l : Option Nat × Option Nat) : Option (Nat × Nat) :=
  match a.2, l.1 with
  | some x, some y => some (x, y)
  | _, _ =>
    match a.1, l.2 with
    | some x, some y => some (x, y)
    | _, _ => none

/-- 386-505: nothing to do, the pair, or giving up -/
def tokenLiqPair (cfg : Cfg) (c : Cache) : Res (Option Out) := do
  let sl ← c.hasPossibleSpotLiquidations
  if sl = false then .ok none
  else do
    let bs ← c.balances .liqEnd
    let as ← mapSome assetCand (liqTokens cfg c bs)
    let ls ← mapSome liabCand (liqTokens cfg c bs)
    match bestPair (findBest cfg (as.insertionSort candBefore)) (findBest cfg (ls.insertionSort candBefore)) with
    | some (a, l) => .ok (some (.act (.tokenLiq a l)))
    | none => .ok (some .bail)

/-- 283-300: the most negative perp pnl -/
def perpNegativeMarket (l : Liqee) : Option Nat :=
  ((((l.perps.map (fun x => (x.1.idx, x.2.1.quote))).filter (fun x => x.2 < 0)).insertionSort (fun a b => a.2 ≤ b.2)).head?).map (·.1)

/-- mango_account_components.rs:80-86 `native` of a position -/
def nativeOf (l : Liqee) (p : Health.Pos) : Res I80F48 :=
  Fx.mul p.indexed (if p.indexed > 0 then (l.banks p.tokenIndex).bank.depositIndex else (l.banks p.tokenIndex).bank.borrowIndex)

/-- 339-357 `tokens`: positions by value, lowest first -/
def tokensByValue (l : Liqee) : Res (List (Nat × I80F48)) := do
  let ts ← mapRes (fun (p : Health.Pos) => do
    let n ← nativeOf l p
    let v ← Fx.mul n (l.banks p.tokenIndex).oracle
    .ok (p.tokenIndex, v)) l.tokens
  .ok (ts.insertionSort (fun a b => a.2 ≤ b.2))

/-- 540-566: the debt of largest value that is not forbidden -/
def bankruptToken (cfg : Cfg) (l : Liqee) : Res (Option Nat) := do
  let ts ← tokensByValue l
  .ok ((ts.find? (fun x => x.2 < 0 ∧ x.1 ∉ cfg.forbiddenTokens)).map (·.1))

/-- 591-667 `send_liq_tx` -/
def sendLiqTx (cfg : Cfg) (rng : Rng) (l : Liqee) (c : Cache) : Res Out :=
  if perpOrderMarkets l ≠ [] then .ok (.act (.cancelPerp (rng.choose (perpOrderMarkets l))))
  else if spotOrderMarkets l ≠ [] then .ok (.act (.cancelSpot (cancelled cfg rng (spotOrderMarkets l))))
  else if phase1 c = true then .ok .bail
  else do
    let pb ← perpBaseMarket cfg l
    match pb with
    | some m => .ok (.act (.perpBase m))
    | none => do
      let tl ← tokenLiqPair cfg c
      match tl with
      | some o => .ok o
      | none =>
        if ∃ p ∈ c.perps, p.hasOpenFills = true then .ok .wait
        else do
          let p2 ← phase2 c
          if p2 = true then .ok .bail
          else do
            let p3 ← inPhase3 c
            let sb ← spotBorrows c
            match (if p3 = true then perpNegativeMarket l else none) with
            | some m => .ok (.act (.perpNegative m))
            | none =>
              if p3 = true ∧ sb = true then do
                let t ← bankruptToken cfg l
                match t with
                | some t => .ok (.act (.tokenBankruptcy t))
                | none => .ok .bail
              else .ok .bail

/-- health/client.rs:14-20 `is_liquidatable` -/
def isLiquidatable (fd : FDiv) (c : Cache) (being : Bool) : Res Bool := do
  let h ← c.health fd (if being = true then .liqEnd else .maint)
  .ok (decide (h < 0))

/-- 692-726 `maybe_liquidate_account` (without the wait for the new state): `none` if the account cannot be liquidated -/
def maybeLiquidate (cfg : Cfg) (rng : Rng) (rnd : ℚ → ℚ) (fd : FDiv) (now : Int) (l : Liqee) (being : Bool) : Res (Option Out) := do
  let c ← accountCache rnd now l.banks l.tokens l.orders l.perps
  let q ← isLiquidatable fd c being
  if q = false then .ok none
  else do
    let o ← sendLiqTx cfg rng l c
    .ok (some o)

end Liquidator
end Mango
