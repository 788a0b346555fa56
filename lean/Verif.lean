import Verif.Num
import Verif.FMap
import Verif.Simple.Model
import Verif.Simple.Spec
import Verif.Simple.Lemmas
import Verif.Simple.Props
import Verif.Curve.Math
import Verif.Curve.Model
import Verif.Curve.Spec
import Verif.Curve.Lemmas
import Verif.Curve.MathLemmas
import Verif.Curve.Props
import Verif.Curve.Invariant
import Verif.Curve.InvariantProps
import Verif.Curve.Accuracy
import Verif.Curve.AccuracyProps
import Verif.Curve.Liquidity
import Verif.Vectors
import Verif.Exchange.Ids
import Verif.Exchange.Echo
import Verif.Exchange.Twap
import Verif.Exchange.TwapProps
import Verif.Exchange.IdProps
import Verif.Exchange.Account
import Verif.Exchange.Pool
import Verif.Exchange.State
import Verif.Exchange.Swap
import Verif.Exchange.Calls
import Verif.Exchange.Admin
import Verif.Exchange.Step
import Verif.Exchange.View
import Verif.Exchange.PoolLemmas
import Verif.Exchange.Spec
import Verif.Exchange.AccountLemmas
import Verif.Exchange.SwapLemmas
import Verif.Exchange.CallLemmas
import Verif.Exchange.Frame
import Verif.Exchange.CfgLemmas
import Verif.Exchange.Demo
import Verif.Exchange.Access
import Verif.Exchange.PoolSteps
import Verif.Exchange.PoolProps
import Verif.Exchange.Ownership
import Verif.Exchange.SwapProps
import Verif.Exchange.TransferProps
import Verif.Exchange.StorageProps
import Verif.Exchange.ShadowProps
import Verif.Exchange.FrozenProps
import Verif.Exchange.LimitProps
import Verif.Exchange.Ledger
import Verif.Exchange.ExactLedger
import Verif.Exchange.ExactProps
import Verif.Exchange.NearProps
import Verif.Exchange.FeeProps
import Verif.Exchange.VolumeProps
import Verif.Exchange.PredictProps
import Verif.Exchange.RatedView
import Verif.Exchange.RatedViewProps
import Verif.Exchange.ZapProps
import Verif.Exchange.BackedProps
import Verif.Exchange.World
import Verif.Exchange.Solvency
import Verif.Exchange.SolvencyDemo
import Verif.Exchange.Oracle
import Verif.Exchange.OracleSpec
import Verif.Exchange.OracleLemmas
import Verif.Exchange.OracleProps
import Verif.Exchange.Legacy
import Verif.Exchange.LegacyProps
import Verif.Exchange.TwapView
import Verif.Exchange.TwapSteps
import Verif.Exchange.TwapHistory
import Verif.Exchange.TwapHistoryProps
import Verif.Exchange.TwapLive
import Verif.Exchange.Exit
import Verif.Exchange.ExitProps
import Verif.Exchange.AccountView
import Verif.Exchange.AccountRuns
import Verif.Exchange.AccountViewProps
import Verif.Exchange.Execute
import Verif.Exchange.ExecuteProps
import Verif.Exchange.ExecuteMoreProps
import Verif.Curve.HoldingsProps
import Verif.Curve.RatedValue
import Verif.Curve.Price
import Verif.Exchange.PriceView
import Verif.Paging
import Verif.Exchange.PoolInfo
import Verif.Exchange.PoolView
import Verif.Exchange.PoolViewProps
import Verif.Farming.ListView
import Verif.Farming.ListProps
import Verif.Farming.Farm
import Verif.Farming.State
import Verif.Farming.Calls
import Verif.Farming.Spec
import Verif.Farming.Demo
import Verif.Farming.FarmLemmas
import Verif.Farming.Inv
import Verif.Farming.Steps
import Verif.Farming.CallLemmas
import Verif.Farming.Reach
import Verif.Farming.Effects
import Verif.Farming.FarmProps
import Verif.Farming.Short
import Verif.Farming.StakeProps
import Verif.Farming.ShareProps
import Verif.Farming.LifeProps
import Verif.Farming.View
import Verif.Farming.ViewProps
import Verif.Farming.LockWitness
import Verif.Farming.LockProps
import Verif.Farming.RateProps
import Verif.Farming.Kinds
import Verif.Farming.BookProps
import Verif.Farming.World
import Verif.Farming.Ledger
import Verif.Farming.Solvency
import Verif.Farming.SolvencyDemo
import Verif.Farming.FarmerView
import Verif.Farming.FarmerViewProps
import Verif.Farming.ClaimProps
import Verif.Farming.LeaveProps
import Verif.Exchange.Scope
import Verif.Exchange.Local
import Verif.Exchange.LocalProps
import Verif.Farming.FrontProps
import Verif.Exchange.SettingView
import Verif.Exchange.SettingViewProps
import Verif.Exchange.PledgeWorld
import Verif.Exchange.PledgeProps
import Verif.Joint.StakeWorld
import Verif.Joint.StakeProps
import Verif.Joint.StakeDemo
import Verif.Simple.Worth
import Verif.Exchange.Worth
import Verif.Exchange.WorthProps
import Verif.Curve.Worth
import Verif.Exchange.CurvePath
import Verif.Exchange.CurveWorthProps
import Verif.Curve.RatedWorth
import Verif.Exchange.RatedWorthProps
import Verif.Exchange.WitnessProps
import Verif.Curve.Slope
import Verif.Exchange.CycleProps
import Verif.Curve.Fair
import Verif.Curve.FairProps
import Verif.Exchange.FairProps
import Verif.Curve.Monotone
import Verif.Exchange.MonotoneProps
import Verif.Exchange.MoreView
import Verif.Exchange.MoreViewProps
import Verif.Curve.Concave
import Verif.Exchange.ConcaveProps
import Verif.Simple.Live
import Verif.Curve.Live
import Verif.Exchange.LiveCurve
import Verif.Exchange.LiveProps
import Verif.Exchange.LiveCallProps
import Verif.Exchange.PartsProps
import Verif.Farming.EarnProps
import Verif.Farming.AllPaidProps
import Verif.Exchange.DustProps
import Verif.Boost.State
import Verif.Boost.Calls
import Verif.Boost.Lemmas
import Verif.Boost.ClaimLemmas
import Verif.Boost.Inv
import Verif.Boost.Restake
import Verif.Boost.Edit
import Verif.Boost.Steps
import Verif.Boost.Demo
import Verif.Boost.StakeProps
import Verif.Boost.RewardProps
import Verif.Boost.AccessProps
import Verif.Boost.BoostProps
import Verif.Boost.TermsProps
import Verif.Boost.SettingProps
import Verif.Boost.Moves
import Verif.Boost.FairProps
import Verif.Boost.AllPaidProps
import Verif.Boost.Shown
import Verif.Boost.FrontProps
import Verif.Boost.LiveProps
import Verif.Boost.ListView
import Verif.Boost.ViewProps
import Verif.Boost.SponsorProps
import Verif.Boost.ApartProps
import Verif.Farming.ApartProps
import Verif.Farming.OrderProps
import Verif.Boost.OrderProps
import Verif.Boost.WaitProps
import Verif.Farming.OftenProps
