import Verif.Health.Model
/-!
# Liquidation phases

Models health/cache.rs:851-868 and 923-1048: which parts of an account have to be liquidated before others.
-/
namespace Mango
namespace Health
open Fx
namespace Cache

/-- cache.rs:934-941: a token the account really owes, with a negative effective balance -/
def OwesToken (t : TokenInfo) (b : I80F48) : Prop := t.balanceSpot < 0 ∧ b < 0
instance (t : TokenInfo) (b : I80F48) : Decidable (OwesToken t b) := by unfold OwesToken; infer_instance

/-- cache.rs:923-932: a token that token liquidation could take from the account -/
def LiqAsset (t : TokenInfo) (b : I80F48) : Prop := t.balanceSpot ≥ ONE ∧ b ≥ ONE ∧ t.allowAssetLiquidation = true
instance (t : TokenInfo) (b : I80F48) : Decidable (LiqAsset t b) := by unfold LiqAsset; infer_instance

/-- cache.rs:943-951 `has_possible_spot_liquidations` -/
def hasPossibleSpotLiquidations (c : Cache) : Res Bool := do
  let bs ← c.balances .liqEnd
  .ok (decide ((∃ x ∈ c.tokens.zip bs, OwesToken x.1 x.2) ∧ ∃ x ∈ c.tokens.zip bs, LiqAsset x.1 x.2))

/-- cache.rs:987-994 `require_after_phase1_liquidation` -/
def requireAfterPhase1 (c : Cache) : Res Unit := do
  require (∀ s ∈ c.serums, s.hasZeroFunds = true) .hasOpenOrUnsettledOrders
  require (∀ p ∈ c.perps, p.hasOpenOrders = false) .hasOpenOrUnsettledOrders

/-- cache.rs:1012-1031 `require_after_phase2_liquidation` -/
def requireAfterPhase2 (c : Cache) : Res Unit := do
  c.requireAfterPhase1
  let sl ← c.hasPossibleSpotLiquidations
  require (sl = false) .someError
  require (∀ p ∈ c.perps, p.baseLots = 0) .someError
  require (∀ p ∈ c.perps, p.hasOpenFills = false) .hasOpenPerpTakerFills
  require (∀ p ∈ c.perps, ¬ (p.baseLots = 0 ∧ p.quote > 0)) .someError

/-- cache.rs:851-868 `adjust_token_balance`; `w` are the bank's scaled init weights after the change (857-860) -/
def adjustTokenBalance (c : Cache) (ti : Nat) (w : I80F48 × I80F48) (change : I80F48) : Res Cache :=
  match c.tokenIdx ti with
  | none => .error .tokenPositionDoesNotExist
  | some i => do
    let t ← Serum3Info.at_ c.tokens i
    let removed ← Fx.neg change
    let bal ← Fx.sub t.balanceSpot removed
    .ok { c with tokens := c.tokens.set i { t with initScaledAssetWeight := w.1, initScaledLiabWeight := w.2, balanceSpot := bal } }

end Cache
end Health
end Mango
