import Verif.Text.Lemmas
import Verif.LineIndex.Props
import Verif.LineEndings.Props
import Verif.Edits.Props
import Verif.Edits.Clamp
import Verif.Edits.Exact
import Verif.Edits.Reversed
import Verif.Disjoint.Props
import Verif.Vfs.Props
import Verif.FileSet.Props
import Verif.Paths.Props
import Verif.Paths.Resolve
import Verif.Paths.WindowsModel
import Verif.Paths.Windows
import Verif.Paths.Name
import Verif.Paths.AbsModel
import Verif.Paths.Abs
import Verif.Loader.Props
import Verif.Loader.Prepared
import Verif.AstGen.UpToDate
import Verif.Diagnostics.Props
import Verif.Db.Props
import Verif.Server.Sync
import Verif.Server.Responses
import Verif.Server.Logged
import Verif.Server.LogLines
import Verif.Server.Converge
import Verif.Kinds.Props
import Verif.Lexer.Props
import Verif.Lexer.Trivia
import Verif.Lexer.Lines
import Verif.Parser.HighLevel
import Verif.Lexer.Lookahead
import Verif.Parser.GrammarBodies
import Verif.Conformance.Trees
import Verif.Conformance.Units
import Verif.Parser.Props
import Verif.Parser.Token
import Verif.Parser.Language
import Verif.Parser.Wp
import Verif.Parser.Accept
import Verif.Parser.AcceptItems
import Verif.Parser.AcceptExpr
import Verif.Parser.AcceptTop
import Verif.Parser.Shapes
import Verif.Parser.Fragment
import Verif.Parser.Operators
import Verif.Parser.Samples
import Verif.Parser.Layout
import Verif.Parser.Blind
import Verif.Parser.Reformat
import Verif.Parser.Rename
import Verif.Parser.Placed
import Verif.Parser.Shift
import Verif.Parser.Front
import Verif.Parser.Lenient
import Verif.Parser.Strict
import Verif.Parser.Sound
import Verif.Parser.SoundSpec
import Verif.Parser.SoundItems
import Verif.Parser.SoundExpr
import Verif.Parser.SoundTop
import Verif.Parser.SoundProps
import Verif.Pipeline.Props
import Verif.Pipeline.Shown
import Verif.Server.Versions
import Verif.Server.Closed
import Verif.Server.Crash
import Verif.Stdx.Case
import Verif.Stdx.Indent
import Verif.Stdx.Search
import Verif.Stdx.Process
import Verif.Stdx.ProcessWindows
import Verif.Stdx.PanicContext
import Verif.Stdx.Trim
import Verif.Stdx.Utf8
import Verif.OpQueue.Props
import Verif.TestUtils.Cursor
import Verif.TestUtils.AnnotationsModel
import Verif.TestUtils.Annotations
import Verif.TestUtils.TagsModel
import Verif.TestUtils.Tags
import Verif.TestUtils.Fixture
import Verif.TestUtils.ChangeFixture
import Verif.Project.Discover
import Verif.Project.Reload
import Verif.Project.StartupModel
import Verif.Project.Startup
import Verif.Editor.Ws
import Verif.Editor.Download
import Verif.Editor.BootstrapModel
import Verif.Editor.Bootstrap
import Verif.Editor.Token
import Verif.Editor.TraceModel
import Verif.Editor.Trace
import Verif.Editor.ActivateModel
import Verif.Editor.Activate
import Verif.AstGen.Samples
import Verif.AstGen.Kinds
import Verif.AstGen.GenModel
import Verif.AstGen.Generated
import Verif.AstGen.Names
import Verif.Ast.Views
import Verif.AstGen.Traits
import Verif.Lexer.Spelling
import Verif.Ast.Spelling
import Verif.Parser.ErrorEvents
import Verif.Parser.ErrorGrammar
import Verif.Parser.ErrorNodes
import Verif.Ast.Structure
import Verif.Ast.Accessors
import Verif.Parser.Viable
import Verif.Parser.ViableSpec
import Verif.Parser.ViableExpr
import Verif.Parser.ViableTop
import Verif.Parser.FirstError
import Verif.Parser.ViableProps
import Verif.Parser.Stable
import Verif.Parser.StableProps
import Verif.Parser.LostSpec
import Verif.Parser.LostCheck
import Verif.Parser.LostGrammar
import Verif.Parser.LostAtoms
import Verif.Parser.LostExpr
import Verif.Parser.LostItems
import Verif.Parser.LostBodies
import Verif.Parser.Lost
import Verif.Server.ThreadsModel
import Verif.Server.Threads
import Verif.Server.ThreadsAnswers
import Verif.Server.DispatchModel
import Verif.Server.Dispatch
import Verif.Server.OwnRequests
import Verif.Editor.Active
import Verif.Editor.DoveModel
import Verif.Editor.Dove
import Verif.Editor.SelectorModel
import Verif.Editor.Selector
import Verif.Editor.SelectorWild
import Verif.Parser.MissingSpec
import Verif.Parser.Said
import Verif.Parser.MissingGrammar
import Verif.Parser.Missing
import Verif.Urls.Model
import Verif.Urls.Spec
import Verif.Urls.Props
import Verif.Server.Announced
import Verif.Editor.ProgressModel
import Verif.Editor.Progress
import Verif.Editor.Comments
import Verif.Build.Version
import Verif.TestUtils.Linear
import Verif.Ast.Tokens
import Verif.Server.Process
import Verif.Editor.Tasks
import Verif.Parser.SizeGrammar
import Verif.Parser.Size
import Verif.Parser.EdgesWalk
import Verif.Parser.Edges
