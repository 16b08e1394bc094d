import Verif.Model.Jinja

/-!
# The command line program

Models `mau/__init__.py` (`load_environment_files`, `load_environment_variables`) and `mau/cli.py` (`main`,
`write_output`), and the class `Mau` of `mau/__init__.py` with the error messages it hands to the message handler
(`mau/message.py`).

Outside the model: `argparse` (its result is `CliArgs`), the tokens and the help that are printed on request, debug messages of visitors, the YAML loader and the plugins found through entry points (both
are parameters).
-/

namespace Mau

/-- mau/__init__.py:24 — `BASE_NAMESPACE`. -/
def baseNamespace : Str := c%"mau"

/-- mau/__init__.py:77-81, 133-137 — the namespace under which files or variables are stored: an absent or empty one is
replaced by the default. -/
def cliNamespace (ns : Option Str) (default : Str) : Str :=
  baseNamespace ++ ['.'] ++ (match ns with | none => default | some n => if n.isEmpty then default else n)

/-- mau/__init__.py:139-152 — the loop over the variables: `key, value = variable.split("=")` raises
ValueError unless there are exactly two parts. -/
def collectVariables : List Str → Dict Val → Except Err (Dict Val)
  | [], flat => .ok flat
  | v :: vs, flat =>
    match splitChar '=' v with
    | [key, value] => collectVariables vs (flat.set key (.str value))
    | _ => .error (.py .valueError)

/-- mau/__init__.py:126-155 — `load_environment_variables`. -/
def loadEnvironmentVariables (e : Env) (variables : List Str) (ns : Option Str := none) : Except Err Env := do
  let flat ← collectVariables variables []
  if flat.isEmpty then return e
  else return Env.dupdate e (Env.asItems flat) (cliNamespace ns c%"envvars")

/-- `Path(s).name`: the last component that is neither empty nor `.` (POSIX paths). -/
def pathName (s : Str) : Str :=
  match ((splitChar '/' s).filter fun c => !c.isEmpty && c != ['.']).getLast? with
  | none => []
  | some n => n

/-- `Path(s).stem`: the name without the last suffix; a dot at the start or the end of the name does
not begin a suffix. -/
def pathStem (s : Str) : Str :=
  let n := pathName s
  match splitChar '.' n with
  | [] | [_] => n
  | parts =>
    let stem := joinWith ['.'] parts.dropLast
    if stem.isEmpty || parts.getLast?.getD [] == [] then n else stem

/-- mau/__init__.py:100-112 — `KEY=PATH`, or a path stored under the name of the file without extension. -/
def fileKey (filename : Str) : Str × Str :=
  match splitChar '=' filename with
  | [key, path] => (key, path)
  | _ => (pathStem filename, filename)

/-- mau/__init__.py:83-120 — the loop over the files; `load` opens and parses a YAML file and fails if the
file cannot be read or parsed. The raised `ConfigurationError` is a `ValueError`. -/
def collectFiles (load : Str → Option Nested) : List Str → List (Str × Nested) → Except Err (List (Str × Nested))
  | [], flat => .ok flat
  | f :: fs, flat =>
    match load (fileKey f).2 with
    | none => .error (.py .valueError)
    | some content => collectFiles load fs (Dict.set flat (fileKey f).1 content)

/-- mau/__init__.py:69-123 — `load_environment_files`. -/
def loadEnvironmentFiles (load : Str → Option Nested) (e : Env) (files : List Str) (ns : Option Str := none) :
    Except Err Env := do
  let flat ← collectFiles load files []
  if flat.isEmpty then return e
  else return Env.dupdate e flat (cliNamespace ns c%"envfiles")

/-- `s.replace(old, new)` for a non-empty `old`. -/
def pyReplace (old new s : Str) : Str := joinWith new (splitStr old s)

/-- cli.py:286-289 — the name of the output file. -/
def outputFile (input : Str) (output : Option Str) (extension : Str) : Str :=
  let default := pyReplace c%".mau" ('.' :: extension) input
  match output with
  | none => default
  | some o => if o.isEmpty then default else o

/-- cli.py:44-151 — the parsed command line arguments. -/
structure CliArgs where
  configFile : Option Str := none
  input : Str
  output : Option Str := none
  environmentFiles : List Str := []
  environmentFilesNamespace : Option Str := some c%"envfiles"
  environmentVariables : List Str := []
  environmentVariablesNamespace : Option Str := some c%"envvars"
  visitor : Option Str := none
  lexerOnly : Bool := false

/-- A visitor class: the extension of its output files, and `process`, which depends on the
environment. -/
structure CliVisitor where
  extension : Str
  process : Env → DocOutput → Except Err Str

/-- message.py:9-55 — the error messages: `MauLexerErrorMessage` with source and position, `MauParserErrorMessage` with its context, and
`MauVisitorErrorMessage` with the type and context of a node, whose data are not modelled. The help texts are not modelled either. -/
inductive Message where
  | lexer (text : Msg) (source : Option Str) (line column : Nat)
  | parser (text : Msg) (context : Option Context)
  | visitor (text : Msg) (node : Option (Str × Context))
  deriving DecidableEq, Repr

/-- message.py:58-60 — `MauException.message`; other exceptions have none. -/
def Err.message : Err → Option Message
  | .lexer m line column source => some (.lexer m source line column)
  | .parser m ctx => some (.parser m ctx)
  | .visitor m node => some (.visitor m node)
  | _ => none

/-- One line of the log: a fixed text, followed by the text of a message. -/
structure LogLine where
  start : Str
  message : Option Msg := none
  deriving DecidableEq, Repr

/-- text_buffer.py:106-114 — `Context.__repr__` and `__str__`. -/
def Context.repr (c : Context) : Str :=
  (match c.source with
    | none => []
    | some s => if s.isEmpty then [] else s ++ [':']) ++
    natStr c.startLine ++ [','] ++ natStr c.startColumn ++ ['-'] ++ natStr c.endLine ++ [','] ++ natStr c.endColumn

/-- text_buffer.py:32-41 and the formatting of a pair of integers — `str(adjust_position(position))`. -/
def positionStr (line column : Nat) : Str := ['('] ++ natStr (line + 1) ++ c%", " ++ natStr column ++ [')']

/-- message.py:78-90, 105-148 — the lines `LogMessageHandler.process` logs as errors for an error message (`pre` is the prefix of the
handler, message.py:97-103), without those for help texts and for the data and additional information of visitor messages. -/
def logLines (pre : Str) : Message → List LogLine
  | .lexer m source line column =>
    [⟨c%"Lexer error: ", some m⟩, ⟨c%"Source: " ++ source.getD c%"None", none⟩, ⟨c%"Position: " ++ positionStr line column, none⟩]
  | .parser m none => [⟨c%"Parser error: ", some m⟩]
  | .parser m (some ctx) => [⟨c%"Parser error: ", some m⟩, ⟨c%"Context: " ++ ctx.adjust.repr, none⟩]
  | .visitor m none => [⟨pre ++ c%"Visitor error", none⟩, ⟨pre ++ c%"Message: ", some m⟩, ⟨pre ++ c%"Context: None", none⟩]
  | .visitor m (some (type, ctx)) =>
    [⟨pre ++ c%"Visitor error", none⟩, ⟨pre ++ c%"Message: ", some m⟩, ⟨pre ++ c%"Context: " ++ ctx.repr, none⟩] ++
    if type.isEmpty then [] else [⟨pre ++ c%"Node type: " ++ type, none⟩]

/-- The result of a method of `Mau`, and the messages handed to the message handler meanwhile. -/
structure Guarded (α : Type) where
  result : Except Err α
  handled : List Message

/-- mau/__init__.py:181-187, 191-197, 203-212 — the `try` statement of `run_lexer`, `run_parser` and `run_visitor`: the message of a
Mau exception goes to the message handler, and the exception is raised again. -/
def guarded {α : Type} (x : Except Err α) : Guarded α :=
  match x with
  | .ok a => ⟨.ok a, []⟩
  | .error e =>
    match e.message with
    | some m => ⟨.error e, [m]⟩
    | none => ⟨.error e, []⟩

/-- One method after the other. -/
def Guarded.andThen {α β : Type} (x : Guarded α) (f : α → Guarded β) : Guarded β :=
  match x.result with
  | .error e => ⟨.error e, x.handled⟩
  | .ok a => ⟨(f a).result, x.handled ++ (f a).handled⟩

/-- mau/__init__.py:176-187 — `Mau.init_text_buffer` and `Mau.run_lexer`. -/
def mauLexer (text : Str) (source : Str) : Guarded (List Token) :=
  guarded (lexDocument (TextBuffer.ofText text 0 0 (some source)))

/-- mau/__init__.py:189-199 — `Mau.run_parser` on the tokens of the given text (the model of the parser lexes the text itself, with
the same result). The parser works on the environment object of `Mau`, so the variables the document defines are in it
afterwards. -/
def mauParser (cfg : Config) (fuel : Nat) (env : Env) (text : Str) (source : Str) : Guarded DocSt :=
  guarded (parseDoc cfg fuel text env (some source))

/-- mau/__init__.py:201-212 — `Mau.run_visitor`, with the environment of `Mau` at that time. -/
def mauVisitor (v : CliVisitor) (env : Env) (output : DocOutput) : Guarded Str :=
  guarded (v.process env output)

/-- mau/__init__.py:214-233 — `Mau.process`. -/
def mauProcess (cfg : Config) (fuel : Nat) (env : Env) (v : CliVisitor) (text source : Str) : Guarded Str :=
  (mauLexer text source).andThen fun _ =>
    (mauParser cfg fuel env text source).andThen fun s => mauVisitor v s.env s.output

/-- The world outside: text files, the YAML loader, and the visitors. -/
structure CliWorld where
  cfg : Config := {}
  read : Str → Option Str
  load : Str → Option Nested
  visitors : Dict CliVisitor

/-- How the program ends. -/
inductive CliStatus where
  /-- end of `main` -/
  | done
  /-- `sys.exit(code)` -/
  | exit (code : Nat)
  /-- an uncaught exception -/
  | raised (e : Err)
  deriving DecidableEq, Repr

/-- The effects of a run: how it ends, the file written (name and content), the output printed and the errors logged. -/
structure CliResult where
  status : CliStatus
  written : Option (Str × Str) := none
  printed : Option Str := none
  logged : List LogLine := []
  deriving DecidableEq, Repr

/-- cli.py:27-41 — `write_output`. -/
def writeOutput (rendered file : Str) : CliResult :=
  if file = ['-'] then { status := .done, printed := some (rendered ++ ['\n']) }
  else { status := .done, written := some (file, rendered ++ ['\n']) }

/-- cli.py:237-240, 257-260, 280-284 — one of the three steps: the messages of a failure are logged; Mau exceptions end the program with code 1,
others are not caught. -/
def cliStep {α : Type} (x : Guarded α) (next : α → CliResult) : CliResult :=
  match x.result with
  | .ok a => next a
  | .error e =>
    { status := if e.isMau then .exit 1 else .raised e
      logged := x.handled.flatMap (logLines c%"[MAU] ") }

/-- cli.py:187-216 — the environment: the configuration file below `mau`, then files, then variables. -/
def cliEnvironment (w : CliWorld) (a : CliArgs) : Except Err Env := do
  let config ← match a.configFile with
    | none => pure (Nested.dict [])
    | some f => if f.isEmpty then pure (Nested.dict []) else
      match w.load f with
      | none => throw (.py .osError)
      | some c => pure c
  let env := Dict.update ([] : Env) (flattenNested [(baseNamespace, config)])
  let env ← loadEnvironmentFiles w.load env a.environmentFiles a.environmentFilesNamespace
  loadEnvironmentVariables env a.environmentVariables a.environmentVariablesNamespace

/-- cli.py:160-293 — `main`, with recursion budget `fuel` for the parser. -/
def cliMain (w : CliWorld) (fuel : Nat) (a : CliArgs) : CliResult :=
  match cliEnvironment w a with
  | .error e => { status := .raised e }
  | .ok env =>
  match w.read a.input with
  | none => { status := .raised (.py .osError) }
  | some text =>
  cliStep (mauLexer text a.input) fun _ =>
  if a.lexerOnly then { status := .exit 0, printed := some c%"Mau stopped after the lexing step as requested\n" } else
  cliStep (mauParser w.cfg fuel env text a.input) fun s =>
  match a.visitor with
  | none => { status := .exit 1 }
  | some name =>
  match Dict.get? w.visitors name with
  | none => { status := .raised (.py .keyError) }     -- excluded by argparse (`choices`)
  | some v =>
  cliStep (mauVisitor v s.env s.output) fun rendered => writeOutput rendered (outputFile a.input a.output v.extension)

end Mau
