import Verif.Util.Text
import Verif.SymbolTable.Model
import Verif.SymbolTable.Lemmas
import Verif.SymbolTable.Props
import Verif.Fsa.Core
import Verif.Fsa.Transducer
import Verif.Fsa.Ctc.Model
import Verif.Fsa.Ctc.Lemmas
import Verif.Fsa.Ctc.TopoLemmas
import Verif.Fsa.Ctc.Props
import Verif.Util.Loop
import Verif.Rnnt.RangesModel
import Verif.Rnnt.RangesLemmas
import Verif.Rnnt.RangesProps
import Verif.Rnnt.MutualInfoModel
import Verif.Rnnt.Alignments
import Verif.Rnnt.MutualInfoLemmas
import Verif.Rnnt.MutualInfoBackward
import Verif.Rnnt.MutualInfoProps
import Verif.Util.MapM
import Verif.Rnnt.PrunedModel
import Verif.Rnnt.PrunedLemmas
import Verif.Rnnt.PrunedProps
import Verif.Rnnt.LatticeModel
import Verif.Rnnt.LatticeProps
import Verif.Fsa.Cover
import Verif.Fsa.Ops.UnionModel
import Verif.Fsa.Ops.UnionProps
import Verif.Fsa.Ops.ClosureModel
import Verif.Fsa.Ops.ClosureProps
import Verif.Fsa.Ops.ClosureAux
import Verif.Util.Ragged
import Verif.Fsa.Rows
import Verif.Fsa.Ops.SelfLoopsModel
import Verif.Fsa.Ops.SelfLoopsProps
import Verif.Fsa.Ops.LoopsVecModel
import Verif.Fsa.Ops.LoopsVecProps
import Verif.Fsa.Ops.ReverseModel
import Verif.Fsa.Ops.ReverseProps
import Verif.Fsa.Ops.ExpandModel
import Verif.Fsa.Ops.ExpandLemmas
import Verif.Fsa.Ops.ExpandPaths
import Verif.Fsa.Ops.ExpandProps
import Verif.Fsa.Ops.InvertProps
import Verif.Fsa.Ops.InvertTensor
import Verif.Fsa.Lev.Model
import Verif.Fsa.Lev.Spec
import Verif.Fsa.Lev.Paths
import Verif.Fsa.Lev.Props
import Verif.Fsa.Lev.Limit
import Verif.Ragged.Layer
import Verif.Ragged.LayerProps
import Verif.Ragged.Nest
import Verif.Ragged.IndexModel
import Verif.Ragged.IndexLemmas
import Verif.Ragged.IndexProps
import Verif.Ragged.AxisModel
import Verif.Ragged.Depth
import Verif.Ragged.AxisProps
import Verif.Ragged.StackModel
import Verif.Ragged.StackProps
import Verif.Ragged.Transpose
import Verif.Ragged.EditModel
import Verif.Ragged.RangeProps
import Verif.Ragged.SizeProps
import Verif.Ragged.RemoveEmptyProps
import Verif.Ragged.CatModel
import Verif.Ragged.CatLemmas
import Verif.Ragged.CatSpec
import Verif.Ragged.CatZip
import Verif.Ragged.CatCore
import Verif.Ragged.CatProps
import Verif.Ragged.UnstackModel
import Verif.Ragged.UnstackLemmas
import Verif.Ragged.UnstackSpec
import Verif.Ragged.UnstackCore
import Verif.Ragged.UnstackProps
import Verif.SymbolTable.EqProps
import Verif.Ragged.Hash
import Verif.Ragged.UniqueProps
import Verif.Fsa.Flags.Model
import Verif.Fsa.Flags.Lemmas
import Verif.Fsa.Flags.Props
import Verif.Fsa.Flags.Semantics
import Verif.Fsa.Vec.Model
import Verif.Fsa.Vec.Lemmas
import Verif.Fsa.Connect.Model
import Verif.Fsa.Connect.Bfs
import Verif.Fsa.Connect.Passes
import Verif.Fsa.Connect.Restrict
import Verif.Fsa.Connect.Paths
import Verif.Fsa.Connect.Props
import Verif.Fsa.Sort.Model
import Verif.Fsa.Sort.Props
import Verif.Fsa.TopSort.Model
import Verif.Fsa.TopSort.Kernel
import Verif.Fsa.TopSort.Batches
import Verif.Fsa.TopSort.Degrees
import Verif.Fsa.TopSort.Steps
import Verif.Fsa.TopSort.Loop
import Verif.Fsa.TopSort.Order
import Verif.Fsa.TopSort.Renumber
import Verif.Fsa.TopSort.Props
import Verif.Fsa.Tensor.Model
import Verif.Fsa.Tensor.Lemmas
import Verif.Fsa.Tensor.Props
import Verif.Fsa.Batches.Model
import Verif.Fsa.Batches.Chase
import Verif.Fsa.Batches.Lemmas
import Verif.Fsa.Batches.Pad
import Verif.Fsa.Batches.Props
import Verif.Fsa.Scores.Model
import Verif.Fsa.Scores.Sweep
import Verif.Fsa.Scores.Vec
import Verif.Fsa.Scores.Fixed
import Verif.Fsa.Scores.Paths
import Verif.Fsa.Scores.Props
import Verif.Fsa.Shortest.Model
import Verif.Fsa.Shortest.Sweep
import Verif.Fsa.Shortest.Fixed
import Verif.Fsa.Shortest.Trace
import Verif.Fsa.Shortest.Tasks
import Verif.Fsa.Shortest.Gather
import Verif.Fsa.Shortest.FromArcs
import Verif.Fsa.Shortest.Props
import Verif.Threads.Model
import Verif.Threads.Lemmas
import Verif.Threads.Live
import Verif.Threads.Serial
import Verif.Threads.Props
import Verif.Fsa.Intersect.Model
import Verif.Fsa.Intersect.Bfs
import Verif.Fsa.Intersect.Emits
import Verif.Fsa.Intersect.Graph
import Verif.Fsa.Intersect.Spec
import Verif.Fsa.Intersect.Single
import Verif.Fsa.Intersect.Creator
import Verif.Fsa.Intersect.Vec
import Verif.Fsa.Intersect.Props
import Verif.Fsa.Det.Wrap
import Verif.Fsa.Det.WrapProps
import Verif.Fsa.Det.Model
import Verif.Fsa.Det.Layer
import Verif.Fsa.Det.Tree
import Verif.Fsa.Det.Norm
import Verif.Fsa.Det.Loop
import Verif.Fsa.Det.Raw
import Verif.Fsa.Det.Create
import Verif.Fsa.Det.Spec
import Verif.Fsa.Det.Term
import Verif.Fsa.Det.Props
import Verif.Fsa.RmEps.Props
import Verif.Fsa.RmEps.ChooseProps
import Verif.Fsa.Replace.Props
import Verif.Util.Stream
import Verif.Fsa.Text.Props
import Verif.Fsa.Cache.Props
import Verif.Fsa.Attr.Props
import Verif.Fsa.Attr.Binary
import Verif.Fsa.Attr.Batch
import Verif.Ragged.ChunkModel
import Verif.Ragged.ChunkProps
import Verif.Fsa.Dense.Model
import Verif.Fsa.Dense.Spec
import Verif.Fsa.Dense.Best
import Verif.Fsa.Dense.Lattice
import Verif.Fsa.Dense.LatticeProps
import Verif.Fsa.Dense.Invert
import Verif.Fsa.Dense.Init
import Verif.Fsa.Dense.Steps
import Verif.Fsa.Dense.Grid
import Verif.Fsa.Dense.Format
import Verif.Fsa.Dense.Output
import Verif.Fsa.Dense.Result
import Verif.Fsa.Dense.Main
import Verif.Fsa.Dense.Props
import Verif.Fsa.Dense.Witness
import Verif.Hash.Model
import Verif.Hash.Spec
import Verif.Hash.Probe
import Verif.Hash.Linear
import Verif.Hash.Kernel
import Verif.Hash.Progress
import Verif.Hash.PhaseModel
import Verif.Hash.Phase
import Verif.Hash.Props
import Verif.Hash.Witness
import Verif.Hash.Model64
import Verif.Hash.Props64
import Verif.Hash.Probe64
import Verif.Fsa.Grad.Fixed
import Verif.Fsa.Grad.Witness
import Verif.Ragged.ReduceWitness
import Verif.Rnnt.LossWitness
import Verif.Fsa.Pruned.Witness
import Verif.Fsa.Pruned.ThreadProps
import Verif.Nbest.SuffixModel
import Verif.Nbest.Radix
import Verif.Nbest.Order
import Verif.Nbest.Names
import Verif.Nbest.Suffix
import Verif.Nbest.SuffixMain
import Verif.Nbest.LcpModel
import Verif.Nbest.Lcp
import Verif.Nbest.IntervalModel
import Verif.Nbest.IvSpec
import Verif.Nbest.Interval
import Verif.Nbest.Tree
import Verif.Nbest.Tightest
import Verif.Nbest.StatsModel
import Verif.Nbest.StatsSpec
import Verif.Nbest.Encode
import Verif.Nbest.Stats
import Verif.Nbest.Texts
import Verif.Nbest.Props
import Verif.Nbest.DocProps
import Verif.Nbest.Witness
import Verif.Rnnt.Decode.Batch
import Verif.Rnnt.Decode.Desc
import Verif.Rnnt.Decode.Expand
import Verif.Rnnt.Decode.Frame
import Verif.Rnnt.Decode.Group
import Verif.Rnnt.Decode.Lattice
import Verif.Rnnt.Decode.Model
import Verif.Rnnt.Decode.Paths
import Verif.Rnnt.Decode.Props
import Verif.Rnnt.Decode.Prune
import Verif.Rnnt.Decode.Rows
import Verif.Rnnt.Decode.Run
import Verif.Rnnt.Decode.Spec
import Verif.Rnnt.Decode.Step
import Verif.Rnnt.Decode.Witness
import Verif.Rnnt.JointModel
import Verif.Rnnt.JointSpec
import Verif.Rnnt.JointProps
import Verif.Fsa.Compose.Model
import Verif.Fsa.Compose.Spec
import Verif.Fsa.Compose.Lemmas
import Verif.Fsa.Compose.Vec
import Verif.Fsa.Compose.Props
import Verif.Fsa.Ctc.Batch
import Verif.Fsa.Ctc.BatchLemmas
import Verif.Fsa.Ctc.LinearBatch
import Verif.Fsa.Ctc.BatchProps
import Verif.Fsa.Loss.Model
import Verif.Fsa.Loss.Spec
import Verif.Fsa.Loss.Build
import Verif.Fsa.Loss.Penalty
import Verif.Fsa.Loss.Total
import Verif.Fsa.Loss.CtcSum
import Verif.Fsa.Loss.Props
import Verif.Fsa.Random.Model
import Verif.Fsa.Random.Count
import Verif.Fsa.Random.Cdf
import Verif.Fsa.Random.Walk
import Verif.Fsa.Random.Pick
import Verif.Fsa.Random.Storage
import Verif.Fsa.Random.Lemmas
import Verif.Fsa.Random.Props
import Verif.Fsa.Prune.Model
import Verif.Fsa.Prune.Lemmas
import Verif.Fsa.Prune.Props
import Verif.Ragged.IndexAxisModel
import Verif.Ragged.IndexAxisProps
import Verif.Ragged.UniqueIndex
import Verif.Fsa.Nbest.Model
import Verif.Fsa.Nbest.Lemmas
import Verif.Fsa.Nbest.Props
import Verif.Fsa.Mwer.Model
import Verif.Fsa.Mwer.Lemmas
import Verif.Fsa.Mwer.Probs
import Verif.Fsa.Mwer.Props
import Verif.Ragged.PadModel
import Verif.Ragged.PadProps
import Verif.Fsa.Nbest.TopModel
import Verif.Fsa.Nbest.TopLemmas
import Verif.Fsa.Nbest.TopProps
import Verif.Fsa.DenseVec.Model
import Verif.Fsa.DenseVec.Lemmas
import Verif.Fsa.DenseVec.Props
import Verif.Fsa.Device.Model
import Verif.Fsa.Device.Cover
import Verif.Fsa.Device.Search
import Verif.Fsa.Device.Pairs
import Verif.Fsa.Device.Number
import Verif.Fsa.Device.Step
import Verif.Fsa.Device.Iter
import Verif.Fsa.Device.Loop
import Verif.Fsa.Device.Order
import Verif.Fsa.Device.Format
import Verif.Fsa.Device.Final
import Verif.Fsa.Device.Result
import Verif.Fsa.Device.Props
import Verif.Fsa.Device.BindModel
import Verif.Fsa.Device.BindProps
import Verif.Fsa.Nbest.IsectModel
import Verif.Fsa.Nbest.IsectProps
import Verif.Fsa.Online.Model
import Verif.Fsa.Online.Props
import Verif.Fsa.Online.Witness
import Verif.Rnnt.Cuda.Model
import Verif.Rnnt.Cuda.Forward
import Verif.Rnnt.Cuda.Backward
import Verif.Rnnt.Cuda.Barrier
import Verif.Rnnt.Cuda.Props
import Verif.Pinned.Model
import Verif.Pinned.Lemmas
import Verif.Pinned.Sys
import Verif.Pinned.Live
import Verif.Pinned.Props
import Verif.BeamSearch.Model
import Verif.BeamSearch.Pack
import Verif.BeamSearch.Batch
import Verif.BeamSearch.Mass
import Verif.BeamSearch.Props
import Verif.Hash.Phase64Props
import Verif.Tensor.Props
import Verif.Tensor.GradProps
import Verif.Fsa.DenseGrad
import Verif.Torch.WaveProps
import Verif.Torch.EscapeProps
import Verif.Torch.OptionsProps
import Verif.Torch.IntegerProps
import Verif.Swoosh.Props
import Verif.Torch.SymbolProps
