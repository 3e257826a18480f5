import Verif.Util.Sort
import Verif.Common.Props
import Verif.Resolver.MergeProps
import Verif.Resolver.VersionProps
import Verif.Resolver.LineageProps
import Verif.Resolver.ExtendsProps
import Verif.Resolver.CatalogProps
import Verif.Resolver.RefsProps
import Verif.Resolver.DepLookupProps
import Verif.Loader.Props
import Verif.Checks.Props
import Verif.Util.Forall2
import Verif.Imports.EntityProps
import Verif.Imports.Props
import Verif.Semconv.DeprecatedProps
import Verif.Semconv.AssocProps
import Verif.Convert.Props
import Verif.Convert.OkProps
import Verif.Diff.Props
import Verif.Versions.Props
import Verif.JsonDiff.Model
import Verif.JsonDiff.Props
import Verif.LiveCheck.Model
import Verif.LiveCheck.RunSpec
import Verif.LiveCheck.RunProps
import Verif.LiveCheck.StatsProps
import Verif.LiveCheck.ModifierProps
import Verif.LiveCheck.AdviceProps
import Verif.LiveCheck.Limits
import Verif.Util.Str
import Verif.Search.Model
import Verif.Search.SearchProps
import Verif.Search.BrowseProps
import Verif.Search.LookupProps
import Verif.LiveCheck.Mcp
import Verif.Markdown.Model
import Verif.Markdown.Grammar
import Verif.Markdown.Props
import Verif.Markdown.Lookup
import Verif.Values.Model
import Verif.Values.Props
import Verif.Infer.Model
import Verif.Infer.Examples
import Verif.Infer.Props
import Verif.Infer.Limits
import Verif.Validate.Model
import Verif.Validate.Props
import Verif.Forge.Val
import Verif.Forge.Otel
import Verif.Forge.OtelProps
import Verif.Forge.Prom
import Verif.Forge.PromProps
import Verif.Forge.Text
import Verif.Forge.TextProps
import Verif.Forge.CommentProps
import Verif.Fs.Model
import Verif.Fs.Props
import Verif.Gen.Config
import Verif.Gen.ConfigProps
import Verif.Gen.Engine
import Verif.Gen.EngineProps
import Verif.Gen.Output
import Verif.Gen.OutputProps
import Verif.Common.VDir
import Verif.Common.VDirProps
import Verif.Cli.Config
import Verif.Cli.ConfigProps
import Verif.Schema.Model
import Verif.Schema.Props
import Verif.Schema.ManifestProps
import Verif.V2.Model
import Verif.V2.Props
import Verif.Resolver.RefsGeneral
import Verif.Resolver.Pipeline
import Verif.Resolver.PipelineProps
import Verif.Resolver.PipelineOrder
import Verif.Policy.Data
import Verif.Policy.MergeProps
import Verif.Policy.DataProps
import Verif.Policy.Engine
import Verif.Policy.FindingProps
import Verif.Policy.EngineProps
import Verif.Policy.Flow
import Verif.Policy.FlowProps
import Verif.Archive.Model
import Verif.Archive.Props
import Verif.Definition.Model
import Verif.Definition.Props
import Verif.Engine.Cache
import Verif.Engine.CacheProps
import Verif.Engine.Model
import Verif.Engine.Props
import Verif.Engine.RunProps
import Verif.Engine.FreshProps
import Verif.Engine.HistoryProps
import Verif.Chain.Model
import Verif.Chain.Steps
import Verif.Chain.Props
import Verif.Chain.Refuted
import Verif.Chain.Refine
import Verif.Chain.ImportProps
import Verif.Receiver.Model
import Verif.Receiver.Props
import Verif.Receiver.StopProps
import Verif.Receiver.EndProps
import Verif.Receiver.TermProps
import Verif.Receiver.Timer
import Verif.Receiver.Ingest
import Verif.Receiver.IngestProps
import Verif.Render.Wrap
import Verif.Render.WrapSpec
import Verif.Render.WrapProps
import Verif.Render.Html
import Verif.Render.HtmlProps
import Verif.Render.HtmlLayout
import Verif.Render.HtmlTags
import Verif.Render.HtmlNewlines
import Verif.Render.Md
import Verif.Render.MdSpec
import Verif.Render.MdBase
import Verif.Render.MdInline
import Verif.Render.MdProps
import Verif.Render.MdRefuted
import Verif.Render.MdNumbers
import Verif.Render.MdRefs
import Verif.Render.MdEscape
import Verif.View.Model
import Verif.View.Spec
import Verif.View.Props
import Verif.View.ResolvedProps
import Verif.View.LookupProps
import Verif.Stats.Model
import Verif.Stats.Props
import Verif.Emit.Model
import Verif.Emit.Props
import Verif.Emit.RoundTrip
import Verif.Samples.Text
import Verif.Samples.FindingLog
import Verif.Samples.Json
import Verif.Samples.JsonTrip
import Verif.SchemaError.Model
import Verif.SchemaError.Props
import Verif.Snippet.Model
import Verif.Snippet.Props
import Verif.Commands.Model
import Verif.Commands.Props
import Verif.Commands.EffectProps
import Verif.Commands.PackageProps
import Verif.Commands.SearchUi
import Verif.Advice.Regex
import Verif.Advice.Model
import Verif.Advice.Props
import Verif.Advice.FindingProps
import Verif.Advice.ReportProps
import Verif.Advice.Limits
import Verif.Jq.Model
import Verif.Jq.Props
import Verif.Jq.SignalProps
import Verif.Trip.Model
import Verif.Trip.Spec
import Verif.Trip.Props
import Verif.Trip.Limits
import Verif.Fetch.Model
import Verif.Fetch.Props
import Verif.Fetch.More
import Verif.Case.Model
import Verif.Case.Tests
import Verif.Case.Letter
import Verif.Case.Props
import Verif.Case.More
import Verif.Show.Model
import Verif.Show.Props
import Verif.Macro.Model
import Verif.Macro.Props
import Verif.Macro.Names
import Verif.Macro.Tests
import Verif.Serve.Model
import Verif.Serve.Props
import Verif.Tools.Compat
import Verif.Tools.Downstream
import Verif.Tools.Ansi
import Verif.Misc.Modules
import Verif.Misc.Ids
import Verif.Misc.Stats
import Verif.Tools.Policy
import Verif.LiveCheck.Messages
import Verif.Imports.OriginProps
import Verif.Samples.LogTexts
import Verif.Forge.OtelTypes
import Verif.Macro.Kinds
import Verif.Render.HtmlParagraphs
import Verif.Resolver.RefLineage
import Verif.Forge.PromFilters
import Verif.Gen.ParamArgs
import Verif.LiveCheck.Detect
import Verif.Commands.Main
import Verif.Tools.ReleasePatch
import Verif.Serve.Paging
import Verif.Diff.Report
import Verif.Show.DiagTemplates
import Verif.LiveCheck.Template
import Verif.Commands.DiagInit
import Verif.Common.Wrap
import Verif.Jq.Errors
import Verif.SchemaError.Types
import Verif.Resolver.SemVer
