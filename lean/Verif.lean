import Verif.Lemmas.Access
import Verif.Lemmas.Again
import Verif.Lemmas.Apply
import Verif.Lemmas.Arena
import Verif.Lemmas.Args
import Verif.Lemmas.Asks
import Verif.Lemmas.AsksFinite
import Verif.Lemmas.AsksWorld
import Verif.Lemmas.Attr
import Verif.Lemmas.Bind
import Verif.Lemmas.Blow
import Verif.Lemmas.Both
import Verif.Lemmas.Braces
import Verif.Lemmas.Builtins
import Verif.Lemmas.ByteLexer
import Verif.Lemmas.Call
import Verif.Lemmas.Capture
import Verif.Lemmas.Cases
import Verif.Lemmas.Check
import Verif.Lemmas.Circle
import Verif.Lemmas.Cli
import Verif.Lemmas.Closed
import Verif.Lemmas.CodeText
import Verif.Lemmas.Codes
import Verif.Lemmas.Comment
import Verif.Lemmas.Compute
import Verif.Lemmas.Control
import Verif.Lemmas.Convert
import Verif.Lemmas.Crash
import Verif.Lemmas.Crlf
import Verif.Lemmas.Css
import Verif.Lemmas.Cutoff
import Verif.Lemmas.Data
import Verif.Lemmas.Date
import Verif.Lemmas.Dom
import Verif.Lemmas.Double
import Verif.Lemmas.Eval
import Verif.Lemmas.EvalCheck
import Verif.Lemmas.Exchange
import Verif.Lemmas.ExchangeRun
import Verif.Lemmas.Fill
import Verif.Lemmas.Fixed
import Verif.Lemmas.Fold
import Verif.Lemmas.Get
import Verif.Lemmas.Glob
import Verif.Lemmas.Guard
import Verif.Lemmas.Halt
import Verif.Lemmas.Html
import Verif.Lemmas.Include
import Verif.Lemmas.Indep
import Verif.Lemmas.Joined
import Verif.Lemmas.Keeps
import Verif.Lemmas.LaidDoc
import Verif.Lemmas.Lambda
import Verif.Lemmas.Laws
import Verif.Lemmas.Layout
import Verif.Lemmas.Letters
import Verif.Lemmas.Levels
import Verif.Lemmas.Lexer
import Verif.Lemmas.Lists
import Verif.Lemmas.Loaded
import Verif.Lemmas.Looks
import Verif.Lemmas.Machine
import Verif.Lemmas.Macros
import Verif.Lemmas.Marks
import Verif.Lemmas.Markup
import Verif.Lemmas.Matched
import Verif.Lemmas.Matching
import Verif.Lemmas.Mono
import Verif.Lemmas.More
import Verif.Lemmas.Moved
import Verif.Lemmas.MovedDoc
import Verif.Lemmas.MovedRun
import Verif.Lemmas.MovedStep
import Verif.Lemmas.Nearest
import Verif.Lemmas.Never
import Verif.Lemmas.Out
import Verif.Lemmas.OutRun
import Verif.Lemmas.Outside
import Verif.Lemmas.Parser
import Verif.Lemmas.Paste
import Verif.Lemmas.Path
import Verif.Lemmas.Paths
import Verif.Lemmas.Pre
import Verif.Lemmas.Reader
import Verif.Lemmas.Refine
import Verif.Lemmas.Rename
import Verif.Lemmas.Runs
import Verif.Lemmas.SayDocument
import Verif.Lemmas.SaySheet
import Verif.Lemmas.Sayable
import Verif.Lemmas.Scope
import Verif.Lemmas.Semi
import Verif.Lemmas.Sheet
import Verif.Lemmas.Silent
import Verif.Lemmas.Sites
import Verif.Lemmas.Size
import Verif.Lemmas.Slices
import Verif.Lemmas.Snag
import Verif.Lemmas.Snip
import Verif.Lemmas.Solo
import Verif.Lemmas.Sort
import Verif.Lemmas.Sound
import Verif.Lemmas.SoundRun
import Verif.Lemmas.Source
import Verif.Lemmas.Space
import Verif.Lemmas.Split
import Verif.Lemmas.Stack
import Verif.Lemmas.StackOut
import Verif.Lemmas.StackRun
import Verif.Lemmas.Steps
import Verif.Lemmas.Styles
import Verif.Lemmas.Tokens
import Verif.Lemmas.Tree
import Verif.Lemmas.Undecidable
import Verif.Lemmas.Unplaced
import Verif.Lemmas.Utf8
import Verif.Lemmas.Void
import Verif.Lemmas.Written
import Verif.Model.Arena
import Verif.Model.Args
import Verif.Model.Assemble
import Verif.Model.Basic
import Verif.Model.ByteLexer
import Verif.Model.Bytes
import Verif.Model.Cli
import Verif.Model.Context
import Verif.Model.Data
import Verif.Model.Expander
import Verif.Model.Lexer
import Verif.Model.Parser
import Verif.Model.Report
import Verif.Model.Site
import Verif.Model.Stack
import Verif.Model.Steps
import Verif.Model.Validate
import Verif.Props.Access
import Verif.Props.Again
import Verif.Props.Anyorder
import Verif.Props.Apply
import Verif.Props.Arena
import Verif.Props.Args
import Verif.Props.Asks
import Verif.Props.Bind
import Verif.Props.Blow
import Verif.Props.Both
import Verif.Props.Branch
import Verif.Props.Bytes
import Verif.Props.Capture
import Verif.Props.Catchall
import Verif.Props.Circle
import Verif.Props.Cli
import Verif.Props.Compute
import Verif.Props.Concats
import Verif.Props.Convert
import Verif.Props.Crash
import Verif.Props.Crlf
import Verif.Props.Css
import Verif.Props.Cutoff
import Verif.Props.Data
import Verif.Props.Date
import Verif.Props.Document
import Verif.Props.Dom
import Verif.Props.Exchange
import Verif.Props.Expand
import Verif.Props.Fill
import Verif.Props.Fold
import Verif.Props.Get
import Verif.Props.Glob
import Verif.Props.Guard
import Verif.Props.Halt
import Verif.Props.Include
import Verif.Props.Joined
import Verif.Props.Lambda
import Verif.Props.Laws
import Verif.Props.Layout
import Verif.Props.Levels
import Verif.Props.Limit
import Verif.Props.Lists
import Verif.Props.Loaded
import Verif.Props.Looks
import Verif.Props.Machine
import Verif.Props.Marks
import Verif.Props.Markup
import Verif.Props.More
import Verif.Props.Moved
import Verif.Props.Outside
import Verif.Props.Paste
import Verif.Props.Reader
import Verif.Props.Refine
import Verif.Props.Rename
import Verif.Props.Report
import Verif.Props.SayDocument
import Verif.Props.SaySheet
import Verif.Props.Sayable
import Verif.Props.Scope
import Verif.Props.Silent
import Verif.Props.Size
import Verif.Props.Snag
import Verif.Props.Snip
import Verif.Props.Solo
import Verif.Props.Sorting
import Verif.Props.Space
import Verif.Props.Splats
import Verif.Props.Split
import Verif.Props.Stack
import Verif.Props.Steps
import Verif.Props.Styles
import Verif.Props.Tree
import Verif.Props.Watchlog
import Verif.Props.Written
import Verif.Spec.Access
import Verif.Spec.Again
import Verif.Spec.Arena
import Verif.Spec.Args
import Verif.Spec.Asks
import Verif.Spec.Bind
import Verif.Spec.Blow
import Verif.Spec.Both
import Verif.Spec.Builtins
import Verif.Spec.Bytes
import Verif.Spec.Capture
import Verif.Spec.Circle
import Verif.Spec.Cli
import Verif.Spec.Control
import Verif.Spec.Convert
import Verif.Spec.Crash
import Verif.Spec.Crlf
import Verif.Spec.Css
import Verif.Spec.Data
import Verif.Spec.Date
import Verif.Spec.Dom
import Verif.Spec.DomNames
import Verif.Spec.Eval
import Verif.Spec.Exchange
import Verif.Spec.Fill
import Verif.Spec.Fold
import Verif.Spec.Glob
import Verif.Spec.Guard
import Verif.Spec.Halt
import Verif.Spec.Joined
import Verif.Spec.Layout
import Verif.Spec.Levels
import Verif.Spec.Loaded
import Verif.Spec.Looks
import Verif.Spec.Machine
import Verif.Spec.Marks
import Verif.Spec.Markup
import Verif.Spec.More
import Verif.Spec.Moved
import Verif.Spec.Nodes
import Verif.Spec.Pairs
import Verif.Spec.Paste
import Verif.Spec.Paths
import Verif.Spec.Reader
import Verif.Spec.Rename
import Verif.Spec.SaySheet
import Verif.Spec.Sayable
import Verif.Spec.Sheet
import Verif.Spec.Silent
import Verif.Spec.Sites
import Verif.Spec.Size
import Verif.Spec.Snag
import Verif.Spec.Source
import Verif.Spec.Space
import Verif.Spec.Stack
import Verif.Spec.Styles
import Verif.Spec.Tree
import Verif.Spec.Unplaced
import Verif.Spec.Written
