/-!
# Results, panics and checked machine integers

`Res α` models Rust's `Result<α>` together with panics: a panic (arithmetic overflow under
`overflow-checks = true` in /repo/Cargo.toml `[profile.release]`, a failed `unwrap`, an index out of range)
aborts the whole Solana transaction exactly as an `Err` does, so both are error values.
-/
namespace Mango

/-- Error values: `panic` for aborts, the others name `MangoError` variants
(/repo/programs/mango-v4/src/error.rs:5-160) that model functions return. -/
inductive Err where
  | panic                      -- overflow, unwrap on None, index out of bounds, assert
  | someError                  -- MangoError::SomeError and generic `require!` failures
  | requireFailed              -- anchor `require_gte!`-style failures without a custom error
  | tokenInReduceOnlyMode
  | bankBorrowLimitReached
  | bankNetBorrowsLimitReached
  | bankDepositLimit
  | healthMustBePositive
  | healthMustBePositiveOrIncrease
  | healthMustBeNegative
  | beingLiquidated
  | isNotBankrupt
  | noFreeTokenPositionIndex
  | noFreeSerum3OpenOrdersIndex
  | noFreePerpPositionIndex
  | noFreePerpOpenOrderSlot
  | serum3OpenOrdersExistAlready
  | tokenPositionDoesNotExist
  | perpPositionDoesNotExist
  | serum3OrdersDoNotExist
  | perpOrderIdNotFound
  | outOfSpace                 -- orderbook: tree is full
  | queueFull
  | queueEmpty
  | wouldSelfTrade
  | maxSettleAmountMustBeGreaterThanZero
  | profitabilityMismatch
  | oracleConfidence
  | oracleStale
  | ixIsDisabled
  | unauthorized
  | isBankrupt
  | hasOpenPerpTakerFills
  | hasOpenOrUnsettledOrders
  | invalidHealthRegion
  | noTokenConditionalSwapSlot
  | tcsExpired
  | tcsPriceNotInRange
  | tcsTakerPriceTooLow
  | tcsMinTake
  | tcsPaused
  | tcsTooSmall
  | missingAccount
  | marketInReduceOnlyMode
  | settlementAmountMustBePositive
  | cannotSettleWithSelf
  | mathError
  | unknownOracleType
  | insufficientBankVaultFunds
  | invalidBank
  | depositsIntoLiquidatingMustRecover
  | groupIsHalted
  | perpHasBaseLots
  | hasLiquidatableTokenPosition
  | hasLiquidatablePerpBasePosition
  | hasLiquidatablePositivePerpPnl
  | accountIsFrozen
  | depositLimit
  | healthRegionBadInnerInstruction
  | tokenInForceClose
  | invalidHealthAccountCount
  | tcsNotStarted
  | tcsAlreadyStarted
  | tcsNotSet
  | tcsCantPayIncentive
  | tcsIndexIdMismatch
  | tcsTypeNotStartable
  | serum3PriceBandExceeded
  | delegateWithdrawOnlyToOwnerAta
  | delegateWithdrawMustClosePosition
  | delegateWithdrawSmall
  | invalidCLMMOracle
  | missingFeed
  | tokenAssetLiquidationDisabled
  | invalidSequenceNumber
  | invalidHealth
  | noLiquidatablePerpBasePosition
  deriving DecidableEq, Repr

abbrev Res (α : Type) := Except Err α

theorem bind_ok {α β : Type} {x : Res α} {f : α → Res β} {b : β} :
    (x >>= f) = .ok b ↔ ∃ a, x = .ok a ∧ f a = .ok b := by
  cases x with
  | error e => simp [bind, Except.bind]
  | ok a => simp [bind, Except.bind]

theorem pure_ok {α : Type} {a b : α} : (pure a : Res α) = .ok b ↔ a = b := by
  simp [pure, Except.pure]

theorem ok_inj {α : Type} {a b : α} : (Except.ok a : Res α) = .ok b ↔ a = b := by simp

theorem err_ok {α : Type} {e : Err} {b : α} : ((Except.error e : Res α) = .ok b) ↔ False := by simp

/-- `require!(c, e)` (anchor): continue when the condition holds. -/
def require (c : Prop) [Decidable c] (e : Err) : Res Unit := if c then .ok () else .error e

theorem require_ok {c : Prop} [Decidable c] {e : Err} {u : Unit} : require c e = .ok u ↔ c := by
  unfold require; split <;> simp_all

theorem ite_ok {α : Type} {c : Prop} [Decidable c] {x y : Res α} {b : α} :
    (if c then x else y) = .ok b ↔ (c ∧ x = .ok b) ∨ (¬ c ∧ y = .ok b) := by
  split <;> simp_all

/-- Checked result of integer arithmetic on a type with range `lo ..= hi`: out of range panics. -/
def chk (lo hi x : Int) : Res Int := if lo ≤ x ∧ x ≤ hi then .ok x else .error .panic

theorem chk_ok {lo hi x y : Int} : chk lo hi x = .ok y ↔ y = x ∧ lo ≤ x ∧ x ≤ hi := by
  unfold chk; split
  · simp only [ok_inj]; constructor
    · intro h; exact ⟨h.symm, by assumption⟩
    · intro h; exact h.1.symm
  · simp only [err_ok, false_iff]; intro h; exact absurd h.2 (by assumption)

/-- i64::MIN and i64::MAX. -/
def I64MIN : Int := -9223372036854775808
def I64MAX : Int := 9223372036854775807
def U64MAX : Int := 18446744073709551615
def I128MIN : Int := -170141183460469231731687303715884105728
def I128MAX : Int := 170141183460469231731687303715884105727

/-- overflow-checked i64 arithmetic -/
def ck64 (x : Int) : Res Int := chk I64MIN I64MAX x
/-- overflow-checked u64 arithmetic -/
def cku64 (x : Int) : Res Int := chk 0 U64MAX x

theorem ck64_ok {x y : Int} : ck64 x = .ok y ↔ y = x ∧ I64MIN ≤ x ∧ x ≤ I64MAX := chk_ok
theorem cku64_ok {x y : Int} : cku64 x = .ok y ↔ y = x ∧ 0 ≤ x ∧ x ≤ U64MAX := chk_ok

end Mango
