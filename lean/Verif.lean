import Verif.Search.Props
import Verif.Ints.Props
import Verif.Range.Props
import Verif.Seq.Props
import Verif.Chars.Props
import Verif.Strs.Props
import Verif.Maps.Props
import Verif.Sets.Props
import Verif.Dates.Props
import Verif.Wall.Props
import Verif.Hex.Props
import Verif.B64.Props
import Verif.Pack.Props
import Verif.Opts.Props
import Verif.Report.Props
import Verif.Watch.Props
import Verif.Pick.Props
import Verif.Contract.Props
import Verif.Doc.Props
import Verif.Enforce.Props
import Verif.Attempt.Props
import Verif.Deque.Props
import Verif.TextIO.Props
import Verif.Clock.Props
import Verif.Rand.Props
import Verif.Builtin.Props
import Verif.Scope.Props
import Verif.Outcome.Props
import Verif.Copy.Props
import Verif.Unify.Props
import Verif.Json.Props
import Verif.Names.Props
import Verif.Mask.Props
import Verif.Regex.Props
import Verif.Types.Props
import Verif.Sigs.Props
import Verif.Skip.Props
import Verif.Codec.Props
import Verif.Arrays.Props
import Verif.Heap.Props
import Verif.Match.Props
import Verif.Kinds.Props
import Verif.Ops.Props
import Verif.Stubs.Props
import Verif.Callbacks.Props
import Verif.Decimal.Props
import Verif.DecimalMore.Props
import Verif.Numeric.Props
import Verif.Buffers.Props
import Verif.Explore.Props
import Verif.DateText.Props
import Verif.Repro.Props
import Verif.Zones.Props
import Verif.DecimalDigits.Props
import Verif.Analyze.Props
import Verif.Inputs.Props
import Verif.Oracles.Props
import Verif.Differential.Props
import Verif.Pep316.Props
import Verif.DecimalFunctions.Props
import Verif.CaseMaps.Props
import Verif.Proxies.Props
import Verif.Registry.Props
import Verif.Editor.Props
import Verif.Floats.Props
import Verif.Calls.Props
import Verif.Depths.Props
import Verif.Bounds.Props
import Verif.Lazy.Props
import Verif.DecimalFormat.Props
import Verif.Passes.Props
import Verif.DateRepr.Props
import Verif.Wrappers.Props
import Verif.DecimalMake.Props
import Verif.DateInputs.Props
import Verif.Keys.Props
import Verif.Cover.Props
import Verif.Values.Props
import Verif.Cells.Props
import Verif.Sources.Props
import Verif.Aliases.Props
import Verif.Protocols.Props
import Verif.Reflected.Props
import Verif.TypedDicts.Props
import Verif.Unbound.Props
import Verif.Formatting.Props
import Verif.TypedArrays.Props
import Verif.DefaultDicts.Props
import Verif.Gcds.Props
import Verif.Replays.Props
import Verif.Evals.Props
import Verif.DictGets.Props
import Verif.Plugins.Props
import Verif.SourceContext.Props
import Verif.Interrupts.Props
import Verif.DecimalDigits.Props2
