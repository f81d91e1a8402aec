import Verif.Proofs.Correct
import Verif.Proofs.Add
import Verif.Proofs.F64
import Verif.Proofs.RoundTrip
import Verif.Proofs.Bridge
import Verif.Spec.Demo
import Verif.Props.Config
import Verif.Proofs.Order
import Verif.Proofs.Stats
import Verif.Props.Record
import Verif.Props.Merge
import Verif.Props.Query
import Verif.Props.Sum
import Verif.Proofs.Exact
import Verif.Props.Wire
import Verif.Props.Api
import Verif.Props.Quantile
import Verif.Props.Steps
import Verif.Props.Ticks
import Verif.Props.Mean
import Verif.Props.Log
import Verif.Props.Sync
import Verif.Props.Inverse
import Verif.Props.Ops
import Verif.Spec.Format
import Verif.Props.Format
import Verif.Model.Io
import Verif.Spec.Io
import Verif.Proofs.Io
import Verif.Props.Io
import Verif.Model.Stdev
import Verif.Spec.Stdev
import Verif.Proofs.Stdev
import Verif.Props.Stdev
import Verif.Spec.Float
import Verif.Props.Float
import Verif.Props.SyncExt
import Verif.Check.Prelude
import Verif.Check.Init
import Verif.Check.Tests
import Verif.Check.IndexCalculation
import Verif.Check.ValueCalculation
import Verif.Check.Subtract
import Verif.Check.AutoResize
import Verif.Check.DataAccess
import Verif.Check.Histogram
import Verif.Check.Iterators
import Verif.Check.Quantile
import Verif.Check.ZigZag
import Verif.Check.Serialization
import Verif.Check.IntervalLog
import Verif.Check.Docs
import Verif.Proofs.Decode
import Verif.Props.Decode
import Verif.Spec.LogText
import Verif.Props.LogText
import Verif.Spec.Refuse
import Verif.Props.Refuse
import Verif.Props.Samples
import Verif.Spec.Width
import Verif.Props.Width
import Verif.Props.Panics
import Verif.Props.TicksExact
import Verif.Props.Release
import Verif.Spec.LogMax
import Verif.Props.LogMax
import Verif.Props.SampleIter
import Verif.Props.Cli
import Verif.Props.SyncMoves
import Verif.Props.VarintRange
import Verif.Props.Items
import Verif.Props.Errors
import Verif.Props.ReleaseLinear
import Verif.Props.ReleaseArith
import Verif.Props.RecordExact
import Verif.Props.QuantileExact
import Verif.Props.FormatExact
import Verif.Props.WireExact
import Verif.Props.Outcomes
import Verif.Spec.LogTotal
import Verif.Props.LogTotal
import Verif.Props.SyncTotal
import Verif.Props.SyncExact
import Verif.Props.InverseExact
import Verif.Props.SyncWaits
import Verif.Props.SumExact
import Verif.Props.SyncRelease
import Verif.Props.AddExact
import Verif.Props.MeanExact
import Verif.Props.SampleLast
import Verif.Props.ErrorTexts
import Verif.Model.SyncPanic
import Verif.Spec.SyncPanic
import Verif.Proofs.SyncPanic
import Verif.Proofs.SyncPanicHist
import Verif.Props.SyncPanic
import Verif.Props.SyncPanicExact
import Verif.Props.SyncExtExact
import Verif.Props.WidthExact
import Verif.Props.LogExact
import Verif.Model.SyncOwner
import Verif.Spec.SyncOwner
import Verif.Spec.SyncFold
import Verif.Props.SyncOwner
import Verif.Props.SyncFold
import Verif.Props.Twin
import Verif.Props.LogCut
import Verif.Props.LogRelease
import Verif.Props.StdevExact
import Verif.Props.RecordOrder
import Verif.Spec.RecordCalls
import Verif.Props.QuantileMove
import Verif.Props.Requantize
import Verif.Props.SameSamples
import Verif.Props.Pipeline
import Verif.Spec.Pipeline
import Verif.Props.Correction
import Verif.Spec.Correction
import Verif.Props.QuantileAgree
import Verif.Props.ItemQueries
import Verif.Spec.ItemQueries
import Verif.Props.MergeMoments
import Verif.Props.Rebuild
import Verif.Props.Forget
import Verif.Props.Split
import Verif.Props.Size
import Verif.Props.SubtractStats
import Verif.Props.AddStats
import Verif.Props.Merged
import Verif.Props.TwinRelease
import Verif.Props.UndoFit
import Verif.Props.SumOrder
import Verif.Props.SyncAlike
import Verif.Props.Grown
