import Verif.Lemmas.Aperture
import Verif.Lemmas.Arc
import Verif.Lemmas.ArcArea
import Verif.Lemmas.Area
import Verif.Lemmas.Board
import Verif.Lemmas.BoardCalls
import Verif.Lemmas.BoardFile
import Verif.Lemmas.BoardForm
import Verif.Lemmas.BoardImage
import Verif.Lemmas.BoardPicture
import Verif.Lemmas.Bow
import Verif.Lemmas.Bulk
import Verif.Lemmas.Codes
import Verif.Lemmas.Collinear
import Verif.Lemmas.Compiler
import Verif.Lemmas.Compiles
import Verif.Lemmas.Completion
import Verif.Lemmas.CompletionCodes
import Verif.Lemmas.Coord
import Verif.Lemmas.CoordProps
import Verif.Lemmas.Crossing
import Verif.Lemmas.Dispatch
import Verif.Lemmas.Dump
import Verif.Lemmas.Exact
import Verif.Lemmas.Executes
import Verif.Lemmas.Expr
import Verif.Lemmas.ExprPrint
import Verif.Lemmas.Fine
import Verif.Lemmas.Fits
import Verif.Lemmas.Flat
import Verif.Lemmas.Fmt
import Verif.Lemmas.Geom
import Verif.Lemmas.Halves
import Verif.Lemmas.Highlight
import Verif.Lemmas.HighlightWords
import Verif.Lemmas.Hover
import Verif.Lemmas.HoverText
import Verif.Lemmas.Laid
import Verif.Lemmas.Leaves
import Verif.Lemmas.Leaves2
import Verif.Lemmas.Leaves3
import Verif.Lemmas.Leaves4
import Verif.Lemmas.Leaves5
import Verif.Lemmas.Leaves6
import Verif.Lemmas.Leveled
import Verif.Lemmas.MacroShape
import Verif.Lemmas.Marked
import Verif.Lemmas.Means
import Verif.Lemmas.Metadata
import Verif.Lemmas.Moved
import Verif.Lemmas.Nodes
import Verif.Lemmas.Ordered
import Verif.Lemmas.Peg
import Verif.Lemmas.Picture
import Verif.Lemmas.ReadAttributes
import Verif.Lemmas.ReadCodes
import Verif.Lemmas.ReadCommands
import Verif.Lemmas.ReadExpr
import Verif.Lemmas.ReadFile
import Verif.Lemmas.ReadMacro
import Verif.Lemmas.ReadRules
import Verif.Lemmas.ReadToken
import Verif.Lemmas.Recover
import Verif.Lemmas.Reformat
import Verif.Lemmas.Render
import Verif.Lemmas.Resilient
import Verif.Lemmas.Resolve
import Verif.Lemmas.Rewrite
import Verif.Lemmas.RewriteText
import Verif.Lemmas.RoundPolygon
import Verif.Lemmas.RoundTrip
import Verif.Lemmas.Rounds
import Verif.Lemmas.RvmcBuilder
import Verif.Lemmas.Server
import Verif.Lemmas.ShapeArea
import Verif.Lemmas.Sim
import Verif.Lemmas.Similar
import Verif.Lemmas.Sketch
import Verif.Lemmas.SketchArea
import Verif.Lemmas.SketchBroad
import Verif.Lemmas.SketchBuild
import Verif.Lemmas.SketchEval
import Verif.Lemmas.SketchPixels
import Verif.Lemmas.SketchRun
import Verif.Lemmas.SolidLayers
import Verif.Lemmas.SoundLayers
import Verif.Lemmas.SoundMacro
import Verif.Lemmas.Sources
import Verif.Lemmas.Spans
import Verif.Lemmas.State
import Verif.Lemmas.Suffix
import Verif.Lemmas.Synced
import Verif.Lemmas.SyncedHistory
import Verif.Lemmas.TabStops
import Verif.Lemmas.Tabs
import Verif.Lemmas.Text
import Verif.Lemmas.Tiled
import Verif.Lemmas.View
import Verif.Lemmas.Vm
import Verif.Lemmas.Written
import Verif.Lemmas.WrittenCommands
import Verif.Lemmas.WrittenFile
import Verif.Model.Color
import Verif.Model.Compiler
import Verif.Model.Completion
import Verif.Model.Composite
import Verif.Model.Config
import Verif.Model.Console
import Verif.Model.Coord
import Verif.Model.Dict
import Verif.Model.Dump
import Verif.Model.Expr
import Verif.Model.FileType
import Verif.Model.Finder
import Verif.Model.Fmt
import Verif.Model.FormatCommand
import Verif.Model.Formatter
import Verif.Model.Geom
import Verif.Model.GerberBuilder
import Verif.Model.GerberFile
import Verif.Model.Grammar
import Verif.Model.Hover
import Verif.Model.HoverText
import Verif.Model.ImageSpace
import Verif.Model.JobFile
import Verif.Model.Lexer
import Verif.Model.Lint
import Verif.Model.LintCommand
import Verif.Model.Linter
import Verif.Model.Macro
import Verif.Model.Metadata
import Verif.Model.Peg
import Verif.Model.Project
import Verif.Model.Raster
import Verif.Model.Render
import Verif.Model.Resilient
import Verif.Model.Rvmc
import Verif.Model.RvmcBuilder
import Verif.Model.RvmcFigures
import Verif.Model.RvmcJson
import Verif.Model.Server
import Verif.Model.Shape
import Verif.Model.ShapeCache
import Verif.Model.SourceHash
import Verif.Model.Spans
import Verif.Model.State
import Verif.Model.Svg
import Verif.Model.Syntax
import Verif.Model.Text
import Verif.Model.View
import Verif.Model.Vm
import Verif.Model.Walk
import Verif.Props.Arcs
import Verif.Props.Board
import Verif.Props.BoardImage
import Verif.Props.BoxCenter
import Verif.Props.Color
import Verif.Props.Compiler
import Verif.Props.Completion
import Verif.Props.Composite
import Verif.Props.Config
import Verif.Props.Console
import Verif.Props.Coord
import Verif.Props.Correct
import Verif.Props.Dump
import Verif.Props.Enclosed
import Verif.Props.Expr
import Verif.Props.FileKind
import Verif.Props.Finder
import Verif.Props.Flash
import Verif.Props.FlashImage
import Verif.Props.Format
import Verif.Props.FormatCommand
import Verif.Props.Geom
import Verif.Props.GerberFile
import Verif.Props.Highlight
import Verif.Props.Hover
import Verif.Props.HoverText
import Verif.Props.Image
import Verif.Props.JobFile
import Verif.Props.Layers
import Verif.Props.Lint
import Verif.Props.LintCommand
import Verif.Props.Linter
import Verif.Props.MacroShape
import Verif.Props.Metadata
import Verif.Props.Outlined
import Verif.Props.Painting
import Verif.Props.Picture
import Verif.Props.Pixels
import Verif.Props.Position
import Verif.Props.Prefixes
import Verif.Props.Project
import Verif.Props.Raster
import Verif.Props.Rendered
import Verif.Props.Repeat
import Verif.Props.Resilient
import Verif.Props.Resolve
import Verif.Props.RvmcBuilder
import Verif.Props.RvmcJson
import Verif.Props.Served
import Verif.Props.Server
import Verif.Props.ShapeCache
import Verif.Props.Shapes
import Verif.Props.Sketch
import Verif.Props.SketchImage
import Verif.Props.SourceHash
import Verif.Props.Spans
import Verif.Props.State
import Verif.Props.Stroke
import Verif.Props.Svg
import Verif.Props.TextCorrect
import Verif.Props.TextImage
import Verif.Props.Vector
import Verif.Props.View
import Verif.Props.Vm
import Verif.Props.Walk
import Verif.Props.Written
import Verif.Spec.Api
import Verif.Spec.Area
import Verif.Spec.Attributes
import Verif.Spec.Board
import Verif.Spec.BoardPicture
import Verif.Spec.Bow
import Verif.Spec.Broken
import Verif.Spec.Color
import Verif.Spec.Commands
import Verif.Spec.Compile
import Verif.Spec.Completion
import Verif.Spec.Config
import Verif.Spec.Console
import Verif.Spec.Correct
import Verif.Spec.Drawing
import Verif.Spec.Dump
import Verif.Spec.Enclosed
import Verif.Spec.Expr
import Verif.Spec.FileKind
import Verif.Spec.Finder
import Verif.Spec.Format
import Verif.Spec.Geom
import Verif.Spec.Highlight
import Verif.Spec.History
import Verif.Spec.Hover
import Verif.Spec.HoverText
import Verif.Spec.Image
import Verif.Spec.Inside
import Verif.Spec.JobFile
import Verif.Spec.Lint
import Verif.Spec.LintCommand
import Verif.Spec.Linter
import Verif.Spec.MacroShape
import Verif.Spec.Metadata
import Verif.Spec.Numeral
import Verif.Spec.Picture
import Verif.Spec.Pixels
import Verif.Spec.Project
import Verif.Spec.Raster
import Verif.Spec.Render
import Verif.Spec.Resilient
import Verif.Spec.RvmcBuilder
import Verif.Spec.RvmcJson
import Verif.Spec.Server
import Verif.Spec.ShapeCache
import Verif.Spec.Sketch
import Verif.Spec.SketchImage
import Verif.Spec.Solid
import Verif.Spec.SourceHash
import Verif.Spec.Spans
import Verif.Spec.Stroke
import Verif.Spec.Svg
import Verif.Spec.Vm
import Verif.Spec.Walk
import Verif.Spec.Words
import Verif.Spec.Written
