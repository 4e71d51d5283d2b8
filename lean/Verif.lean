import Verif.Props.Graph
import Verif.Props.IterUtils
import Verif.Props.AnnotatedText
import Verif.Props.SpanIndex
import Verif.Props.Span
import Verif.Props.RangeMap
import Verif.Props.RangeSet
import Verif.Proofs.RangeSetHistory
import Verif.Proofs.RangeSet
import Verif.Proofs.SortedDict
import Verif.Model.RangeSet
import Verif.Props.Range
import Verif.Props.Params
import Verif.Props.ParamsPairs
import Verif.Props.ParamsUnify
import Verif.Props.ParamsAccess
import Verif.Props.Interpolate
import Verif.Props.Loader
import Verif.Props.Objects
import Verif.Props.Writer
import Verif.Props.KeyValue
import Verif.Props.Zip
import Verif.Props.Files
import Verif.Props.DocMap
import Verif.Props.Sinks
import Verif.Props.Checkpoints
import Verif.Props.MemoryAmount
import Verif.Props.Preconditions
import Verif.Props.SmallScripts
import Verif.Props.PathLists
import Verif.Props.SplitStores
import Verif.Props.ExplicitSplit
import Verif.Props.JoinStores
import Verif.Props.EvalModules
import Verif.Props.FromParams
import Verif.Props.DirToStore
import Verif.Props.TarToZip
import Verif.Props.ParamsPairsMore
import Verif.Props.Logging
import Verif.Props.LoggingExamples
import Verif.Props.TarLifetime
import Verif.Props.AnnotatedMarkup
import Verif.Props.LazyIter
import Verif.Props.PickledRange
import Verif.Props.Attrs
import Verif.Props.AttrsObjects
import Verif.Props.ClassUtils
import Verif.Props.Crash
import Verif.Props.CrashDir
import Verif.Props.CrashFile
import Verif.Props.Concurrent
import Verif.Props.SinkBlocks
import Verif.Props.Small
import Verif.Props.ZipImage
import Verif.Props.DocMapParams
import Verif.Props.ZipLife
import Verif.Props.DirLife
import Verif.Props.ParamsHeap
import Verif.Props.InterpolateStuck
import Verif.Props.ParamsEq
import Verif.Props.StoreScripts
import Verif.Props.CrashScripts
import Verif.Props.CrashConvert
import Verif.Props.LazyIterMore
import Verif.Props.ParamsLists
import Verif.Props.CrashJoin
import Verif.Props.MixedRange
import Verif.Props.ZipKeys
import Verif.Props.NumRange
import Verif.Props.NumParams
import Verif.Props.DirKeys
import Verif.Props.ParamsShared
import Verif.Props.Surrogates
import Verif.Props.WriteFaults
