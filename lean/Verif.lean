import Verif.Prelude.Basic
import Verif.Prelude.Sums
import Verif.Prelude.Ledger
import Verif.Prelude.Fixed
import Verif.Amm.Props
import Verif.Amm.Props2
import Verif.Stable.Props
import Verif.Router.Props
import Verif.Streaming.Props
import Verif.Farming.Props
import Verif.Bridge.Props
import Verif.Loans.Props
import Verif.Loans.Health
import Verif.Loans.RateProps
import Verif.Loans.Markets
import Verif.Loans.Rewards
import Verif.Loans.Floor
import Verif.Staking.Props2
import Verif.Amm.Props3
import Verif.Amm.Props4
import Verif.Amm.Props5
import Verif.Router.Props2
import Verif.Stable.Props2
import Verif.Stable.Props3
import Verif.Streaming.Props2
import Verif.Streaming.Told
import Verif.Farming.Props2
import Verif.Prices.Props
import Verif.Prices.Told
import Verif.Prices.Props2
import Verif.Crowdloans.Props
import Verif.Crowdloans.Props2
import Verif.Crowdloans.Props3
import Verif.Crowdloans.Props4
import Verif.Bridge.Props2
import Verif.Bridge.Told
import Verif.Bridge.Sides
import Verif.Bridge.Network
import Verif.Farming.Props3
import Verif.Prices.Props3
import Verif.Loans.Exact
import Verif.Loans.RewardExact
import Verif.Loans.Admin
import Verif.Loans.Ptoken
import Verif.Loans.OpsExact
import Verif.Loans.Accept
import Verif.Loans.Earned
import Verif.Crowdloans.Props5
import Verif.Crowdloans.Told
import Verif.Evm.CodecProps
import Verif.Evm.XcmProps
import Verif.Evm.PermitProps
import Verif.Evm.BalancesProps3
import Verif.Evm.AssetsProps3
import Verif.Evm.Deployed
import Verif.Evm.Surface
import Verif.Registry.Props
import Verif.Registry.Told
import Verif.Xcm.TraderProps
import Verif.Xcm.AdapterProps
import Verif.Runtime.Props2
import Verif.Runtime.Told
import Verif.Runtime.ToldEvm
import Verif.Runtime.Props3
import Verif.Helper.Props2
import Verif.Helper.Told
import Verif.Currency.Props2
import Verif.Migrations.Props
import Verif.Migrations.Props2
import Verif.Staking.Props3
import Verif.Xcm.Entry
import Verif.Xcm.EntrySpec
import Verif.Xcm.EntryLemmas
import Verif.Xcm.EntrySupply
import Verif.Xcm.EntryProps
import Verif.Xcm.EntryReserve
import Verif.Xcm.EntryArrive
import Verif.System.Props
import Verif.System.OriginProps
import Verif.System.TermsProps
import Verif.System.AccessSpec
import Verif.System.AccessProps
import Verif.Runtime.Accounts
import Verif.Runtime.Fee
import Verif.Runtime.Genesis
import Verif.System.Deployed
import Verif.System.DeployedValues
import Verif.System.LendFor
import Verif.System.Proxied
import Verif.Amm.Share
import Verif.Prices.Lp
import Verif.Loans.PriceMono
import Verif.System.Feed
import Verif.System.Trading
import Verif.System.TradingEx
import Verif.Oracle.Props2
import Verif.Amm.Exit
import Verif.Stable.Exit
import Verif.Stable.Told
import Verif.Router.Tradeable
import Verif.Router.Told
import Verif.Farming.Exit
import Verif.Farming.Told
import Verif.Staking.Accept
import Verif.Evm.GasPaid
import Verif.System.Panic
import Verif.Staking.Answers
import Verif.Staking.Told
import Verif.Loans.Queries
import Verif.Loans.Info
import Verif.Amm.Events
import Verif.Amm.Lookup
import Verif.Loans.Told
import Verif.Loans.ToldRewards
import Verif.Loans.KeepReward
import Verif.Loans.Lent
import Verif.Loans.BorRewards
