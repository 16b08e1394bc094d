import Verif.Model.Visitor
import Verif.Props.Positions
import Verif.Props.Lexing
import Verif.Props.Tokens
import Verif.Props.Environment
import Verif.Props.Preprocess
import Verif.Props.Arguments
import Verif.Props.Aliases
import Verif.Props.Conditions
import Verif.Props.ConditionLexing
import Verif.Props.Text
import Verif.Props.Document
import Verif.Props.Plain
import Verif.Props.Lists
import Verif.Props.Blocks
import Verif.Props.Managers
import Verif.Props.Mentions
import Verif.Props.Overlooked
import Verif.Props.Includes
import Verif.Props.MacroNodes
import Verif.Props.IncludeNodes
import Verif.Props.Errors
import Verif.Props.Ending
import Verif.Props.Sound
import Verif.Props.Crashes
import Verif.Props.Templates
import Verif.Model.TemplateSources
import Verif.Props.TemplateSources
import Verif.Props.Visitor
import Verif.Props.VisitorTotal
import Verif.Props.VisitErrors
import Verif.Props.Copy
import Verif.Props.Cli
import Verif.Props.Variables
import Verif.Props.Places
import Verif.Props.Blame
import Verif.Props.Columns
import Verif.Props.Write
import Verif.Props.Moved
import Verif.Props.MovedRender
import Verif.Props.Faithful
import Verif.Props.Roundtrip
