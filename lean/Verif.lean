import Verif.Layout.Props
import Verif.Layout.KeptProps
import Verif.Layout.SchemaProps
import Verif.Layout.FuelProps
import Verif.Layout.AckProps
import Verif.Option.Props
import Verif.Vdom.Props
import Verif.Hooks.Props
import Verif.Effects.Props
import Verif.Queue.Props
import Verif.Events.Props
import Verif.Handlers.Props
import Verif.Client.ConnProps
import Verif.Client.TimingProps
import Verif.Client.ConvertProps
import Verif.Client.FaithProps
import Verif.Client.InputProps
import Verif.Client.RootProps
import Verif.Client.ElementProps
import Verif.Client.ImportedProps
import Verif.Client.ChildProps
import Verif.Markup.Props
import Verif.Markup.AttrsProps
import Verif.Asgi.Props
import Verif.Console.Props
import Verif.Console.KeysProps
import Verif.Console.LinesProps
import Verif.Widgets.Props
import Verif.Pyscript.Props
import Verif.Pyscript.MinifyProps
import Verif.Pyscript.ExecutorProps
import Verif.Pyscript.WheelProps
import Verif.Reactjs.UrlProps
import Verif.Reactjs.GraphProps
import Verif.Reactjs.LockProps
import Verif.Reactjs.CopyProps
import Verif.Reactjs.CacheProps
import Verif.Reactjs.ExportsProps
import Verif.Sched.Props
import Verif.Location.Props
import Verif.Connection.Props
import Verif.Startup.PageProps
import Verif.Closing.Props
import Verif.Testing.LogsProps
import Verif.Hooks.StackProps
import Verif.Client.DispatchProps
import Verif.Client.NamedProps
import Verif.Pyscript.Page
import Verif.Pyscript.PageProps
import Verif.Handlers.Callable
import Verif.Handlers.CallableProps
import Verif.Client.Script
import Verif.Client.ScriptProps
import Verif.Vdom.Tags
import Verif.Vdom.TagsProps
import Verif.Effects.Parallel
import Verif.Effects.ParallelProps
import Verif.Hooks.Infer
import Verif.Hooks.InferProps
import Verif.Vdom.Warn
import Verif.Vdom.WarnProps
import Verif.Reactjs.Npm
import Verif.Reactjs.NpmProps
import Verif.Component.Model
import Verif.Component.Props
import Verif.Component.ReportProps
import Verif.Handlers.EventData
import Verif.Handlers.EventDataProps
import Verif.Layout.Place
import Verif.Session.Model
import Verif.Session.Props
import Verif.Session.Handler
import Verif.Whole.Model
import Verif.Whole.Props
import Verif.Whole.Parallel
import Verif.Whole.ParallelProps
import Verif.Markup.Transforms
import Verif.Markup.TransformsProps
import Verif.Console.Files
import Verif.Console.FilesProps
import Verif.Hooks.Alias
import Verif.Hooks.AliasProps
import Verif.Hooks.Debug
import Verif.Hooks.DebugProps
import Verif.Testing.Backend
import Verif.Testing.BackendProps
import Verif.Testing.Hotswap
import Verif.Testing.HotswapProps
import Verif.Sched.Switch
import Verif.Sched.SwitchProps
import Verif.Testing.Level
import Verif.Testing.LevelProps
import Verif.Sched.Heap
import Verif.Sched.HeapSpec
import Verif.Sched.HeapLemmas
import Verif.Sched.HeapSteps
import Verif.Sched.HeapProps
import Verif.Sched.HeapAccess
import Verif.Sched.HeapAccessProps
import Verif.Location.Hooks
import Verif.Location.HooksProps
import Verif.Testing.Display
import Verif.Testing.DisplayProps
import Verif.Parallel.Model
import Verif.Parallel.Lemmas
import Verif.Parallel.Props
import Verif.Whole.State
import Verif.Whole.StateProps
import Verif.Client.Inline
import Verif.Client.InlineProps
import Verif.Reactjs.Served
import Verif.Reactjs.ServedProps
import Verif.Whole.Serial
import Verif.Whole.SerialProps
import Verif.Handlers.Equal
import Verif.Handlers.EqualProps
import Verif.Testing.Catcher
import Verif.Testing.CatcherProps
import Verif.Pyscript.Morph
import Verif.Pyscript.MorphProps
import Verif.Option.Reentrant
import Verif.Option.ReentrantProps
import Verif.Hooks.Overlap
import Verif.Hooks.OverlapProps
import Verif.Markup.Links
import Verif.Markup.LinksProps
import Verif.Wire.Model
import Verif.Wire.Props
import Verif.Markup.DocumentedProps
import Verif.Markup.StyleProps
import Verif.Markup.BackProps
import Verif.Markup.DocumentedBack
import Verif.Startup.Text
import Verif.Startup.TextProps
import Verif.Startup.MapTextProps
