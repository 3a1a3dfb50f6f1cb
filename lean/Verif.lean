import Verif.Cache.Props
import Verif.TwoQueue.Props
import Verif.Ring.Props
import Verif.Circular.Props
import Verif.DataBuffer.Props
import Verif.PacketBuffer.Props
import Verif.PagedBuffer.Props
import Verif.Adaptors.Props
import Verif.OrderedMap.Props
import Verif.Flat.Props
import Verif.Inplace.Props
import Verif.Bimap.Props
import Verif.RefCount.Props
import Verif.Intrusive.Props
import Verif.Joiner.Props
import Verif.Trans.Props
import Verif.Trans.ListProps
import Verif.Trans.Snapshot
import Verif.Trans.Exclusion
import Verif.Bits.Props
import Verif.Text.Utf8Props
import Verif.Text.CodecProps
import Verif.BigNum.Props
import Verif.BigNum.Compare
import Verif.BigNum.Text
import Verif.Math.Props
import Verif.Math.Fraction
import Verif.Stream.Mem
import Verif.Stream.Window
import Verif.Stream.BufferedProps
import Verif.Stream.Chunked
import Verif.Stream.LineProps
import Verif.Thread.TokenProps
import Verif.Thread.CondWaitProps
import Verif.Thread.Joining
import Verif.Thread.Barrier
import Verif.Thread.Life
import Verif.Thread.Executor
import Verif.Thread.Threadless
import Verif.Thread.FutureProps
import Verif.Thread.Pipe
import Verif.Timer.Props
import Verif.Pool.Props
import Verif.Signal.Props2
import Verif.Compress.CoderProps
import Verif.Compress.PpmProps
import Verif.Compress.BitBufProps
import Verif.Compress.Overrun
import Verif.Time.CalendarProps
import Verif.Time.BreakDownProps
import Verif.Time.ConvertProps
import Verif.Str.IntsProps
import Verif.Str.HexProps
import Verif.Str.SplitProps
import Verif.Str.EditProps
import Verif.Str.AhoProps
import Verif.Str.ParseProps
import Verif.Holder.VariantProps
import Verif.Holder.OptionalProps
import Verif.Holder.AnyProps
import Verif.Holder.SharedProps
import Verif.Holder.SelfCountProps
import Verif.Range.BasicProps
import Verif.Range.FilterProps
import Verif.Range.ZipProps
import Verif.Range.FlattenProps
import Verif.Range.AlgoProps
import Verif.Time.IsoProps
import Verif.Time.BdtTextProps
import Verif.Time.ZoneProps
import Verif.Time.DurIsoProps
import Verif.Time.DurTextProps
import Verif.Coll.CowProps
import Verif.Coll.ListProps
import Verif.Coll.DictProps
import Verif.Coll.MultiProps
import Verif.Coll.ObservableDictProps
import Verif.Coll.ObservableListProps
import Verif.Coll.ObservableMultiProps
import Verif.Coll.DerivedProps
import Verif.Coll.DerivedTransProps
import Verif.Num.DecimalTextProps
import Verif.Num.FixedProps
import Verif.Num.IntervalProps
import Verif.Util.CompareProps
import Verif.Util.TransactionProps
import Verif.Util.UuidProps
import Verif.Util.VersionProps
import Verif.Util.ProgressProps
import Verif.Token.PoolProps
import Verif.Str.FormatProps
import Verif.Ser.ReadProps
import Verif.Enum.QueryProps
import Verif.Async.DurableProps
import Verif.Text.PagesProps
import Verif.Pipeline.Props
import Verif.Bytes.Props
import Verif.Thread.TurnProps
import Verif.Single.SafeProps
import Verif.Single.PlainProps
import Verif.Thread.SemCondProps
import Verif.Thread.JoinedProps
import Verif.Thread.OperationProps
import Verif.Str.ViewProps
import Verif.EnumStr.ParseProps
import Verif.Holder.UniqueProps
import Verif.Token.ComposeProps
import Verif.Holder.ObjectPoolProps
import Verif.Thread.AsyncCallProps
import Verif.Meta.TypeListProps
import Verif.Meta.TupleProps
import Verif.Meta.BindProps
import Verif.Cmd.CmdLineProps
import Verif.Str.HumanSizeProps
import Verif.Str.ReaderProps
import Verif.Util.RectProps
import Verif.Time.ScanProps
import Verif.Locale.LangCodeProps
import Verif.Text.LocaleStrProps
import Verif.Locale.TranslatedProps
import Verif.Holder.ScopedProps
import Verif.Bits.BitwiseProps
import Verif.Log.DedupProps
import Verif.Log.RegistryProps
import Verif.Regex.Props
import Verif.Thread.PosixProps
import Verif.Time.TimespecProps
import Verif.Util.MapperProps
import Verif.Thread.PriorityProps
import Verif.Diag.AsyncProfilerProps
import Verif.Math.AccumProps
import Verif.Token.TimedProps
import Verif.Bits.BuilderProps
import Verif.Locale.TranslitProps
import Verif.Util.FactoryProps
import Verif.Coll.CasterProps
import Verif.Signal.ObtainProps
import Verif.Compress.TrainProps
import Verif.Enum.ForEachProps
import Verif.Diag.CheckpointProps
import Verif.Diag.SessionProps
import Verif.Str.CaseCompareProps
import Verif.Bytes.OwnerProps
import Verif.Stream.AllProps
import Verif.Diag.LockProfProps
import Verif.Diag.ApiGuardsProps
import Verif.Str.RoundTripProps
import Verif.Func.FunctionProps
import Verif.Pipeline.DataPipeProps
import Verif.Util.DispatchProps
import Verif.Thread.SyncValueProps
import Verif.Enum.BuilderProps
import Verif.Num.CheckedIntProps
import Verif.Diag.ThreadStatProps
import Verif.Bytes.CharArrayProps
import Verif.Thread.AtomicsProps
import Verif.RefCount.BasicProps
import Verif.Thread.SemProps
import Verif.Holder.AllocProps
import Verif.Storage.AlignedProps
import Verif.Holder.ErasureProps
import Verif.Thread.LocalProps
import Verif.Str.StreamProps
import Verif.Scope.ExitProps
import Verif.Array.Props
import Verif.Scope.LocksProps
import Verif.Func.CancellableProps
import Verif.Num.RandomProps
import Verif.Util.FuzzyProps
import Verif.Thread.FinalizerProps
import Verif.Thread.InterruptProps
import Verif.Thread.SleepProps
import Verif.Thread.MutexLockProps
import Verif.Util.SysErrorProps
import Verif.Util.TypeNamesProps
import Verif.Log.MessageProps
