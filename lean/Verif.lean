import Verif.Model.PyBasic
import Verif.Model.Regex
import Verif.Model.Xml
import Verif.Model.Lint
import Verif.Model.Helpers
import Verif.Model.RowIter
import Verif.Model.StructTable
import Verif.Model.ValueTable
import Verif.Model.Document
import Verif.Model.Ascii
import Verif.Lemmas.Monad
import Verif.Lemmas.Regex
import Verif.Lemmas.Str
import Verif.Lemmas.Hoare
import Verif.Lemmas.Label
import Verif.Lemmas.RowIter
import Verif.Lemmas.Validate
import Verif.Props.Range
import Verif.Props.Brief
import Verif.Props.Label
import Verif.Props.LabelExact
import Verif.Props.RangeExact
import Verif.Props.RowIter
import Verif.Props.Headers
import Verif.Lemmas.FigId
import Verif.Lemmas.Figure
import Verif.Lemmas.Size
import Verif.Lemmas.Trace
import Verif.Lemmas.Fuel
import Verif.Lemmas.TraceUse
import Verif.Props.Sample
import Verif.Props.Layout
import Verif.Props.Figures
import Verif.Props.Fields
import Verif.Props.Document
import Verif.Lemmas.Heading
import Verif.Lemmas.Inert
import Verif.Lemmas.Emits
import Verif.Props.Overrides
import Verif.Model.JsonText
import Verif.Model.Output
import Verif.Props.JsonText
import Verif.Props.Output
import Verif.Model.JsonRead
import Verif.Model.Schema
import Verif.Props.Schema
import Verif.Model.Cli
import Verif.Props.Cli
import Verif.Props.Title
import Verif.Model.Word
import Verif.Model.Grid
import Verif.Model.RunProps
import Verif.Model.Css
import Verif.Lemmas.Grid
import Verif.Props.Grid
import Verif.Props.Style
import Verif.Props.Writer
import Verif.Model.WordParse
import Verif.Lemmas.Word
import Verif.Props.Lists
import Verif.Props.WordTables
import Verif.Props.WordFuel
import Verif.Props.Paragraph
import Verif.Model.XmlRead
import Verif.Model.Render
import Verif.Props.PageSpec
import Verif.Lemmas.XmlWrite
import Verif.Lemmas.Page
import Verif.Lemmas.RegexMem
import Verif.Lemmas.PageOk
import Verif.Lemmas.PageRead
import Verif.Props.Page
import Verif.Lemmas.NodeEq
import Verif.Props.Table
import Verif.Lemmas.Stage
import Verif.Props.Stages
import Verif.Model.Header
import Verif.Props.Identity
import Verif.Model.Server
import Verif.Lemmas.Server
import Verif.Props.Events
import Verif.Props.Server
import Verif.Model.FirstStage
import Verif.Props.FirstStage
import Verif.Lemmas.Fresh
import Verif.Lemmas.Tight
import Verif.Props.CellText
import Verif.Props.StructFigure
import Verif.Props.WordFigure
import Verif.Model.Browser
import Verif.Lemmas.Sheet
import Verif.Props.Sheet
import Verif.Props.RunFormat
import Verif.Props.ListStyle
import Verif.Model.ReportView
import Verif.Props.ReportView
import Verif.Props.ReportFigure
import Verif.Model.UploadForm
import Verif.Props.UploadForm
import Verif.Props.ValueFigure
import Verif.Props.WordValues
import Verif.Props.AnyFigure
import Verif.Props.CellReads
import Verif.Lemmas.Rank
import Verif.Lemmas.RowText
import Verif.Props.Reports
import Verif.Lemmas.Following
import Verif.Props.NestedFigure
import Verif.Props.OwnFigures
import Verif.Props.ReadBack
import Verif.Props.Compare
import Verif.Props.FigureIds
import Verif.Props.OwnTables
import Verif.Props.WholeDocument
import Verif.Model.Kill
import Verif.Lemmas.Brackets
import Verif.Lemmas.PageCut
import Verif.Props.Killed
import Verif.Props.Resume
import Verif.Props.LeftPage
import Verif.Model.Console
import Verif.Lemmas.Console
import Verif.Lemmas.ConsoleTrail
import Verif.Props.Console
import Verif.Props.OpenWord
import Verif.Props.ServedPage
import Verif.Model.ReportPage
import Verif.Model.ReportCard
import Verif.Lemmas.HtmlSafe
import Verif.Props.ReportPage
import Verif.Model.Log
import Verif.Props.Log
import Verif.Model.Args
import Verif.Lemmas.ArgWords
import Verif.Lemmas.ArgScan
import Verif.Lemmas.ArgPaths
import Verif.Props.Args
import Verif.Props.Queries
import Verif.Model.ReportLinks
import Verif.Props.ReportLinks
import Verif.Model.ServerSteps
import Verif.Lemmas.ServerSteps
import Verif.Props.ServerSteps
import Verif.Props.UploadedWord
import Verif.Props.Numbers
import Verif.Props.Formatting
import Verif.Props.ServerLife
import Verif.Props.Columns
import Verif.Props.Outermost
import Verif.Props.InputOrder
import Verif.Model.Together
import Verif.Props.Together
import Verif.Props.ReportCard
import Verif.Model.Environ
import Verif.Props.Environ
import Verif.Model.LogOut
import Verif.Props.LogOut
