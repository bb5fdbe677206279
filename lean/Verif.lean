import Verif.Animate.Exact
import Verif.Animate.Model
import Verif.Animate.Props
import Verif.Annotations.Lemmas
import Verif.Annotations.Model
import Verif.Annotations.Props
import Verif.Annotations.Spec
import Verif.Block.Lemmas
import Verif.Block.Model
import Verif.Block.Props
import Verif.Block.Spec
import Verif.Book.Model
import Verif.Book.Page
import Verif.Book.Props
import Verif.Boundaries.Absent
import Verif.Boundaries.Checked
import Verif.Boundaries.CheckedExamples
import Verif.Boundaries.Model
import Verif.Boundaries.Props
import Verif.Boundaries.Recorded
import Verif.Boundaries.Spec
import Verif.Boundaries.Whole
import Verif.Boundaries.WholeExamples
import Verif.Boundaries.WholeOrder
import Verif.Boundaries.WholeProps
import Verif.Boundaries.WholeSpec
import Verif.Cache.Model
import Verif.Cache.Props
import Verif.Cache.Spec
import Verif.Cache.Text
import Verif.Cache.TextProps
import Verif.Cfg.Chain
import Verif.Cfg.Flow
import Verif.Cfg.Model
import Verif.Cfg.Orders
import Verif.Cfg.Props
import Verif.Cfg.Spec
import Verif.Chapter.Exact
import Verif.Chapter.Model
import Verif.Chapter.Props
import Verif.Cli.Model
import Verif.Cli.Props
import Verif.Controls.Model
import Verif.Controls.Props
import Verif.Driver.Model
import Verif.Driver.Props
import Verif.Driver.Spec
import Verif.Embed.Component
import Verif.Embed.ComponentProps
import Verif.Embed.Model
import Verif.Embed.Page
import Verif.Embed.Props
import Verif.Facts.Lemmas
import Verif.Facts.Lent
import Verif.Facts.Live
import Verif.Facts.Model
import Verif.Facts.Parts
import Verif.Facts.Props
import Verif.Facts.Spec
import Verif.Flow.Exit
import Verif.Flow.Model
import Verif.Flow.Props
import Verif.Flow.Spec
import Verif.Frontend.ArrowProps
import Verif.Frontend.Diagram
import Verif.Frontend.DiagramProps
import Verif.Frontend.DiagramSpec
import Verif.Frontend.Editor
import Verif.Frontend.EditorProps
import Verif.Frontend.Follow
import Verif.Frontend.FollowProps
import Verif.Frontend.Layout
import Verif.Frontend.LayoutProps
import Verif.Frontend.Permissions
import Verif.Frontend.PermissionsProps
import Verif.Frontend.Stepper
import Verif.Frontend.StepperProps
import Verif.Frontend.Text
import Verif.Frontend.TextProps
import Verif.Frontend.Trace
import Verif.Frontend.TraceProps
import Verif.Frontend.TraceSpec
import Verif.Frontend.Values
import Verif.Frontend.ValuesProps
import Verif.Frontend.Widgets
import Verif.Frontend.WidgetsProps
import Verif.Graph.Paths
import Verif.Graph.Search
import Verif.Group.Model
import Verif.Group.Props
import Verif.Group.Spec
import Verif.HirSource.Examples
import Verif.HirSource.Model
import Verif.HirSource.Page
import Verif.HirSource.Props
import Verif.HirSteps.Around
import Verif.HirSteps.Coverage
import Verif.HirSteps.Early
import Verif.HirSteps.Examples
import Verif.HirSteps.Finish
import Verif.HirSteps.Fork
import Verif.HirSteps.Leaves
import Verif.HirSteps.LeavesCases
import Verif.HirSteps.Lemmas
import Verif.HirSteps.Model
import Verif.HirSteps.Nested
import Verif.HirSteps.Order
import Verif.HirSteps.ProgramProps
import Verif.HirSteps.Programs
import Verif.HirSteps.Props
import Verif.HirSteps.Region
import Verif.HirSteps.Results
import Verif.HirSteps.Spec
import Verif.HirSteps.Straight
import Verif.InlinePerms.Lemmas
import Verif.InlinePerms.Model
import Verif.InlinePerms.Props
import Verif.InlinePerms.Spec
import Verif.Keys.Exact
import Verif.Keys.Model
import Verif.Keys.Props
import Verif.Keys.Together
import Verif.Live.Cards
import Verif.Live.Model
import Verif.Live.Props
import Verif.Mapper.Model
import Verif.Mapper.Props
import Verif.Mapper.Trace
import Verif.Overlap.Facts
import Verif.Overlap.Model
import Verif.Overlap.Props
import Verif.Overlap.Spec
import Verif.Permissions.Debug
import Verif.Permissions.Model
import Verif.Permissions.Props
import Verif.Permissions.Spec
import Verif.Pipeline.Around
import Verif.Pipeline.Borrowed
import Verif.Pipeline.BorrowedProps
import Verif.Pipeline.Examples
import Verif.Pipeline.Kept
import Verif.Pipeline.Letters
import Verif.Pipeline.Living
import Verif.Pipeline.Model
import Verif.Pipeline.ProgramProps
import Verif.Pipeline.Programs
import Verif.Pipeline.Props
import Verif.Pipeline.Recorded
import Verif.Pipeline.Refinements
import Verif.Pipeline.Runs
import Verif.Pipeline.RunsExample
import Verif.Pipeline.Source
import Verif.Pipeline.SourceExample
import Verif.Pipeline.SourceProps
import Verif.Pipeline.Spec
import Verif.Pipeline.Straight
import Verif.Pipeline.Value
import Verif.Pipeline.WalkProps
import Verif.Pipeline.Ways
import Verif.Preproc.Model
import Verif.Preproc.Process
import Verif.Preproc.ProcessProps
import Verif.Preproc.Props
import Verif.Preproc.Spec
import Verif.Ranges.Empty
import Verif.Ranges.Model
import Verif.Ranges.Operational
import Verif.Ranges.Props
import Verif.Ranges.Spec
import Verif.Recorded.Units
import Verif.Segments.Check
import Verif.Segments.CheckProps
import Verif.Segments.Cuts
import Verif.Segments.Family
import Verif.Segments.Filing
import Verif.Segments.Join
import Verif.Segments.Lemmas
import Verif.Segments.Model
import Verif.Segments.Nested
import Verif.Segments.Props
import Verif.Segments.Spec
import Verif.Segments.Tables
import Verif.Serve.Config
import Verif.Serve.ConfigProps
import Verif.Serve.Leave
import Verif.Serve.LeaveProps
import Verif.Serve.Model
import Verif.Serve.Props
import Verif.Serve.Spec
import Verif.Steps.Model
import Verif.Steps.Props
import Verif.Steps.Spec
import Verif.Story.Demo
import Verif.Story.Marks
import Verif.Story.Model
import Verif.Story.Props
import Verif.Story.Recorded
import Verif.Story.Recursion
import Verif.Story.Spec
import Verif.TestRun.Model
import Verif.TestRun.Props
import Verif.TestSource.Model
import Verif.TestSource.Props
import Verif.TestSource.Spec
import Verif.Toolchain.Model
import Verif.Toolchain.Props
import Verif.Trace.Locals
import Verif.Trace.LocalsProps
import Verif.Trace.LocalsSpec
import Verif.Trace.Model
import Verif.Trace.Moves
import Verif.Trace.Props
import Verif.Trace.Spec
import Verif.Value.Cycles
import Verif.Value.Layout
import Verif.Value.LayoutProps
import Verif.Value.LayoutSpec
import Verif.Value.Lemmas
import Verif.Value.Model
import Verif.Value.Outcome
import Verif.Value.Packed
import Verif.Value.Props
import Verif.Value.Spec
import Verif.Walk.Accepted
import Verif.Walk.Blocks
import Verif.Walk.Builder
import Verif.Walk.Course
import Verif.Walk.Descent
import Verif.Walk.Early
import Verif.Walk.Ends
import Verif.Walk.Lang
import Verif.Walk.Lefts
import Verif.Walk.Merges
import Verif.Walk.Model
import Verif.Walk.Panics
import Verif.Walk.PanicsAccepted
import Verif.Walk.Programs
import Verif.Walk.Props
import Verif.Walk.Region
import Verif.Walk.Shape
import Verif.Walk.Source
import Verif.Walk.UnitTest
import Verif.Walk.UnitTestProps
import Verif.Walk.Value
import Verif.Wire.Analysis
import Verif.Wire.AnalysisProps
import Verif.Wire.Html
import Verif.Wire.HtmlProps
import Verif.Wire.Json
import Verif.Wire.JsonProps
import Verif.Wire.Page
import Verif.Wire.PageProps
import Verif.Wire.Prefix
import Verif.Wire.Props
import Verif.Wire.Trace
import Verif.Wire.TraceProps
import Verif.Wire.TypeScript
import Verif.Wire.TypeScriptProps
import Verif.Wire.Typed
import Verif.Wire.TypedSamples
