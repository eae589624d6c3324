import Verif.Check.RepoTests
import Verif.Model.Chunk
import Verif.Model.Dataset
import Verif.Model.Entry
import Verif.Model.Extent
import Verif.Model.Fetches
import Verif.Model.Filters
import Verif.Model.Flight
import Verif.Model.Index
import Verif.Model.Links
import Verif.Model.Machine
import Verif.Model.Open
import Verif.Model.Poll
import Verif.Model.Python
import Verif.Model.Reader
import Verif.Model.S3
import Verif.Model.Serde
import Verif.Model.Session
import Verif.Model.Stream
import Verif.Model.Tools
import Verif.Model.Tree
import Verif.Model.Unsteady
import Verif.Model.Values
import Verif.Model.Xarray
import Verif.Model.XrIndex
import Verif.Model.XrOpen
import Verif.Model.XrPoints
import Verif.Proofs.BigEndian
import Verif.Proofs.Bridge
import Verif.Proofs.Cache
import Verif.Proofs.Chain
import Verif.Proofs.Damage
import Verif.Proofs.Decode
import Verif.Proofs.Direct
import Verif.Proofs.Ends
import Verif.Proofs.ExactRead
import Verif.Proofs.ExactSlices
import Verif.Proofs.ExactTop
import Verif.Proofs.ExactWalk
import Verif.Proofs.Faithful
import Verif.Proofs.Fetches
import Verif.Proofs.Fewest
import Verif.Proofs.Final
import Verif.Proofs.Float
import Verif.Proofs.Frame
import Verif.Proofs.General
import Verif.Proofs.GridFacts
import Verif.Proofs.Hang
import Verif.Proofs.Indexing
import Verif.Proofs.Matrix
import Verif.Proofs.Mixed
import Verif.Proofs.NoEmpty
import Verif.Proofs.Profiles
import Verif.Proofs.Readers
import Verif.Proofs.Reads
import Verif.Proofs.RelRead
import Verif.Proofs.RelSlices
import Verif.Proofs.RelTop
import Verif.Proofs.RelWalk
import Verif.Proofs.Requests
import Verif.Proofs.Return
import Verif.Proofs.S3
import Verif.Proofs.Serde
import Verif.Proofs.Shuffle
import Verif.Proofs.SliceFacts
import Verif.Proofs.Sliced
import Verif.Proofs.SlicerRun
import Verif.Proofs.Slices
import Verif.Proofs.Snug
import Verif.Proofs.StreamRun
import Verif.Proofs.Touched
import Verif.Proofs.Tree
import Verif.Proofs.Uncut
import Verif.Proofs.UncutGood
import Verif.Proofs.Utf8
import Verif.Proofs.Walk
import Verif.Proofs.WalkTop
import Verif.Proofs.Within
import Verif.Proofs.Wrapped
import Verif.Proofs.WrappedPar
import Verif.Proofs.WrappedS3
import Verif.Proofs.WrappedStream
import Verif.Proofs.Writes
import Verif.Proofs.Xdr
import Verif.Props.Agreement
import Verif.Props.AgreementCases
import Verif.Props.Aligned
import Verif.Props.Attainable
import Verif.Props.AttainableCases
import Verif.Props.Builds
import Verif.Props.BuildsCases
import Verif.Props.Chunks
import Verif.Props.ChunksCases
import Verif.Props.Coherent
import Verif.Props.CoherentCases
import Verif.Props.Common
import Verif.Props.CommonCases
import Verif.Props.Damage
import Verif.Props.DamageCases
import Verif.Props.Demo
import Verif.Props.Either
import Verif.Props.Ending
import Verif.Props.EndingCases
import Verif.Props.Endless
import Verif.Props.Ends
import Verif.Props.EndsCases
import Verif.Props.Entry
import Verif.Props.EntryCases
import Verif.Props.Exact
import Verif.Props.ExactCases
import Verif.Props.ExactIndex
import Verif.Props.ExactIndexCases
import Verif.Props.ExactPython
import Verif.Props.ExactRelease
import Verif.Props.ExactReleaseCases
import Verif.Props.ExactStreamValues
import Verif.Props.ExactStreamValuesCases
import Verif.Props.ExactStreams
import Verif.Props.ExactStreamsCases
import Verif.Props.ExactValues
import Verif.Props.ExactValuesCases
import Verif.Props.ExactValuesRelease
import Verif.Props.ExactValuesReleaseCases
import Verif.Props.ExactWhole
import Verif.Props.ExactXdr
import Verif.Props.ExactXdrCases
import Verif.Props.Exactly
import Verif.Props.ExactlyCases
import Verif.Props.Faithful
import Verif.Props.FaithfulCases
import Verif.Props.Fetches
import Verif.Props.FetchesCases
import Verif.Props.Fewest
import Verif.Props.FewestCases
import Verif.Props.FillValue
import Verif.Props.FillValueCases
import Verif.Props.Filled
import Verif.Props.FilledCases
import Verif.Props.Filters
import Verif.Props.FiltersCases
import Verif.Props.Flight
import Verif.Props.FlightCases
import Verif.Props.Groups
import Verif.Props.GroupsCases
import Verif.Props.History
import Verif.Props.HistoryCases
import Verif.Props.Index
import Verif.Props.IndexCases
import Verif.Props.Links
import Verif.Props.LinksCases
import Verif.Props.Local
import Verif.Props.LocalCases
import Verif.Props.Matrix
import Verif.Props.MatrixCases
import Verif.Props.Memory
import Verif.Props.Open
import Verif.Props.OpenCases
import Verif.Props.Outside
import Verif.Props.Overflow
import Verif.Props.OverflowCases
import Verif.Props.Poll
import Verif.Props.PollCases
import Verif.Props.PollOnce
import Verif.Props.PollOnceCases
import Verif.Props.Python
import Verif.Props.PythonCases
import Verif.Props.PythonShape
import Verif.Props.PythonShapeCases
import Verif.Props.Reading
import Verif.Props.ReadingCases
import Verif.Props.Refuted
import Verif.Props.Remote
import Verif.Props.RemoteCases
import Verif.Props.Requests
import Verif.Props.RequestsCases
import Verif.Props.Safety
import Verif.Props.SafetyCases
import Verif.Props.Select
import Verif.Props.SelectCases
import Verif.Props.Serde
import Verif.Props.SerdeCases
import Verif.Props.SerdeExact
import Verif.Props.SerdeExactCases
import Verif.Props.Session
import Verif.Props.SessionCases
import Verif.Props.Slicing
import Verif.Props.SlicingCases
import Verif.Props.Snug
import Verif.Props.SnugCases
import Verif.Props.StreamOrder
import Verif.Props.StreamOrderCases
import Verif.Props.StreamValues
import Verif.Props.StreamValuesCases
import Verif.Props.Streaming
import Verif.Props.StreamingCases
import Verif.Props.Tools
import Verif.Props.ToolsCases
import Verif.Props.Tree
import Verif.Props.TreeCases
import Verif.Props.TreeExact
import Verif.Props.Truncated
import Verif.Props.TruncatedCases
import Verif.Props.TypeSurvives
import Verif.Props.TypeSurvivesCases
import Verif.Props.Uncut
import Verif.Props.UncutCases
import Verif.Props.Unstable
import Verif.Props.UnstableCases
import Verif.Props.Unsteady
import Verif.Props.UnsteadyCases
import Verif.Props.UnsteadyRemote
import Verif.Props.Values
import Verif.Props.ValuesCases
import Verif.Props.WholeS3
import Verif.Props.WholeXr
import Verif.Props.WholeXrCases
import Verif.Props.WholeXrKeys
import Verif.Props.WholeXrPoints
import Verif.Props.Within
import Verif.Props.WithinCases
import Verif.Props.Xarray
import Verif.Props.XarrayCases
import Verif.Props.XdrTypes
import Verif.Props.XdrTypesCases
import Verif.Props.XrIndex
import Verif.Props.XrIndexCases
import Verif.Props.XrOpen
import Verif.Props.XrOpenCases
import Verif.Props.XrPoints
import Verif.Spec.Common
import Verif.Spec.Filled
import Verif.Spec.Float
import Verif.Spec.Good
import Verif.Spec.Grid
import Verif.Spec.History
import Verif.Spec.Index
import Verif.Spec.Links
import Verif.Spec.Matrix
import Verif.Spec.Number
import Verif.Spec.Numpy
import Verif.Spec.Order
import Verif.Spec.Paths
import Verif.Spec.Plain
import Verif.Spec.Ranges
import Verif.Spec.Remote
import Verif.Spec.Returned
import Verif.Spec.Select
import Verif.Spec.Store
import Verif.Spec.Stored
import Verif.Spec.Tree
import Verif.Spec.Uncut
import Verif.Spec.Utf8
import Verif.Spec.Within
import Verif.Spec.XrIndex
import Verif.Spec.XrOpen
import Verif.Spec.XrPoints
