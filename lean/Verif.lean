import Verif.Basic
import Verif.Fixed
import Verif.Bank.Model
import Verif.Bank.Lemmas
import Verif.Bank.Interest
import Verif.Bank.Balance
import Verif.Bank.System
import Verif.Bank.Effect
import Verif.Bank.SystemLemmas
import Verif.Bank.Solvency
import Verif.Props.Bank
import Verif.Props.Bank2
import Verif.Props.Bank3
import Verif.Props.BankExact
import Verif.Props.Exact
import Verif.Book.Queue
import Verif.Props.Queue
import Verif.Book.Tree
import Verif.Book.TreeGhost
import Verif.Book.ArenaLemmas
import Verif.Book.TreeOps
import Verif.Book.TreeOps2
import Verif.Book.TreeOps3
import Verif.Book.Side
import Verif.Book.SideLemmas
import Verif.Book.Iter
import Verif.Props.Tree
import Verif.Props.Keys
import Verif.ListSum
import Verif.Perp.Types
import Verif.Perp.Match
import Verif.Perp.Trace
import Verif.Perp.Apply
import Verif.Perp.Place
import Verif.Perp.PlaceFacts
import Verif.Perp.Fees
import Verif.Props.Match
import Verif.Props.Match2
import Verif.Props.Match3
import Verif.Props.MatchEx
import Verif.Perp.Moved
import Verif.Perp.System
import Verif.Perp.SlotInv
import Verif.Perp.Exec
import Verif.Perp.SystemInv
import Verif.Perp.SystemSteps
import Verif.Perp.SystemRun
import Verif.Props.Trading
import Verif.Props.Ledger
import Verif.Props.TradingEx
import Verif.Perp.Settle
import Verif.Perp.SettleSystem
import Verif.Props.Settle
import Verif.Props.SettleLimit
import Verif.Props.SettleLedger
import Verif.Props.SettleEx
import Verif.Health.Model
import Verif.Health.Lemmas
import Verif.Health.Spec
import Verif.Health.Bounds
import Verif.Health.Worth
import Verif.Health.Build
import Verif.Health.CheckIx
import Verif.Health.BuildLemmas
import Verif.Props.Health
import Verif.Props.Health2
import Verif.Props.HealthZero
import Verif.Props.HealthSettle
import Verif.Props.HealthEx
import Verif.Account.HealthCheck
import Verif.Props.HealthCheck
import Verif.Props.HealthSkip
import Verif.Props.HealthSkipEx
import Verif.Misc.Gate
import Verif.Props.Gate
import Verif.Misc.Buyback
import Verif.Props.Buyback
import Verif.Misc.Div30
import Verif.Props.Div30
import Verif.Misc.StablePrice
import Verif.Props.StablePrice
import Verif.Oracle.Model
import Verif.Oracle.Retriever
import Verif.Props.Oracle
import Verif.Props.Retriever
import Verif.Account.Bytes
import Verif.Account.BytesLemmas
import Verif.Account.Resize
import Verif.Props.Resize
import Verif.Account.Slots
import Verif.Account.SlotsLemmas
import Verif.Account.SlotsInv
import Verif.Props.Slots
import Verif.Flash.Model
import Verif.Flash.Lemmas
import Verif.Flash.EndLemmas
import Verif.Flash.Tx
import Verif.Flash.Loan
import Verif.Props.Flash
import Verif.Props.FlashEx
import Verif.Tcs.Model
import Verif.Tcs.Amount
import Verif.Tcs.Lemmas
import Verif.Props.Tcs
import Verif.Props.TcsEx
import Verif.Health.Formula
import Verif.Health.FromState
import Verif.Props.HealthFormula
import Verif.Props.HealthState
import Verif.Props.HealthStateEx
import Verif.Liq.Phases
import Verif.Liq.Bankruptcy
import Verif.Props.Bankruptcy
import Verif.Liq.Token
import Verif.Props.TokenLiq
import Verif.Props.TokenLiqHealth
import Verif.Props.TokenLiqGain
import Verif.Props.TokenLiqEx
import Verif.Health.Update
import Verif.Props.HealthUpdate
import Verif.Props.HealthUpdateEx
import Verif.Serum.Model
import Verif.Props.HealthUsed
import Verif.Props.SerumLoans
import Verif.Props.SerumPrices
import Verif.Props.SerumPotential
import Verif.Props.SerumPlace
import Verif.Props.SerumEx
import Verif.Props.SerumPlaceEx
import Verif.Misc.Collateral
import Verif.Props.Collateral
import Verif.Props.CollateralEx
import Verif.Liq.PerpBase
import Verif.Props.PerpLiqPlan
import Verif.Props.PerpLiqOver
import Verif.Props.PerpLiq
import Verif.Props.PerpLiqResult
import Verif.Props.PerpLiqHealth
import Verif.Props.PerpLiqEx
import Verif.Wallet.Model
import Verif.Props.Wallet
import Verif.Props.WalletHealth
import Verif.Props.WalletDeposit
import Verif.Props.WalletEx
import Verif.Liq.ForceClose
import Verif.Props.HealthRecache
import Verif.Props.ForceClose
import Verif.Props.ForceCloseEx
import Verif.Config.Model
import Verif.Config.Spec
import Verif.Config.Lemmas
import Verif.Config.Steps
import Verif.Props.Config
import Verif.Props.ConfigHistory
import Verif.Props.ConfigMarkets
import Verif.Props.ConfigListing
import Verif.Perp.OrderIx
import Verif.Props.PerpOrder
import Verif.Props.PerpExposure
import Verif.Props.PerpForceClose
import Verif.Props.PerpOrderEx
import Verif.Client.Search
import Verif.Client.Model
import Verif.Client.SearchLemmas
import Verif.Props.ClientSearch
import Verif.Props.Client
import Verif.Props.ClientEx
import Verif.Auth.Model
import Verif.Props.Authority
import Verif.Props.AuthorityEx
import Verif.Settle.Model
import Verif.Props.SettleHealth
import Verif.Settle.Lookup
import Verif.Props.Settlement
import Verif.Props.SettlementHealth
import Verif.Props.SettlementFees
import Verif.Props.SettlementEx
import Verif.Liq.PerpNegative
import Verif.Props.PerpNegAmounts
import Verif.Props.PerpNeg
import Verif.Props.PerpNegHealth
import Verif.Props.PerpNegEx
import Verif.Props.ClientPreview
import Verif.Perp.CancelIx
import Verif.Props.Cancel
import Verif.Props.CancelHealth
import Verif.Props.CancelEx
import Verif.Props.MatchFull
import Verif.Props.Posting
import Verif.Props.PostingEx
import Verif.Props.Depth
import Verif.Props.DepthEx
import Verif.Props.SettlementExact
import Verif.Props.SettlementExactEx
import Verif.Props.LiqExact
import Verif.Props.PerpLiqEnough
import Verif.Props.ScanComplete
import Verif.Feeds.Fills
import Verif.Props.FillsFeed
import Verif.Props.FillsFeedMarket
import Verif.Feeds.Book
import Verif.Props.BookFeed
import Verif.Props.BookFeedHub
import Verif.Props.BookFeedMarket
import Verif.Region.Model
import Verif.Props.Region
import Verif.Client.Accounts
import Verif.Props.ClientAccounts
import Verif.Props.ClientPositions
import Verif.Props.ClientHealthAccounts
import Verif.Props.HealthCheckIx
import Verif.Config.Registry
import Verif.Props.Registry
import Verif.Liq.Insurance
import Verif.Props.Insurance
import Verif.Bots.Workers
import Verif.Props.Workers
import Verif.Client.Fetcher
import Verif.Props.Fetcher
import Verif.Client.PerpPnl
import Verif.Props.PerpPnl
import Verif.Bots.Settler
import Verif.Props.Settler
import Verif.Bots.Errors
import Verif.Props.Errors
import Verif.Bots.Liquidate
import Verif.Props.Liquidate
import Verif.Bots.Trigger
import Verif.Props.Trigger
import Verif.Bots.TriggerRun
import Verif.Props.TriggerRun
import Verif.Health.Equity
import Verif.Health.Value
import Verif.Health.FloatDiv
import Verif.Props.HealthValue
import Verif.Props.Equity
import Verif.Bots.QuoteCache
import Verif.Props.QuoteCache
import Verif.Props.Float64
import Verif.Bots.Rebalance
import Verif.Props.Rebalance
import Verif.Bots.Keeper
import Verif.Props.Keeper
import Verif.Bots.TcsStart
import Verif.Props.TcsStart
import Verif.Bots.Crank
import Verif.Props.Crank
import Verif.Misc.Allocator
import Verif.Props.Allocator
import Verif.Bots.Pnl
import Verif.Props.PnlService
import Verif.Bots.Persist
import Verif.Props.Persist
import Verif.Client.SlotPlan
import Verif.Props.SlotPlan
import Verif.Account.Close
import Verif.Props.Close
import Verif.Props.OrderOrigin
import Verif.Props.OrderLots
import Verif.Perp.Entry
import Verif.Props.Entry
import Verif.Props.EntryTerms
import Verif.Client.Confirm
import Verif.Props.Confirm
import Verif.Bots.SwapInfo
import Verif.Props.SwapInfo
import Verif.Client.Budget
import Verif.Props.Budget
import Verif.Client.Refresh
import Verif.Props.Refresh
