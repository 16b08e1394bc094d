import Verif.Model.Cli
import Verif.Spec.Environment

/-!
# Specification of the command line
-/

namespace Mau
namespace Spec

/-- `KEY=VALUE` on the command line. -/
def Assigns (arg key value : Str) : Prop := arg = key ++ '=' :: value ∧ '=' ∉ key ∧ '=' ∉ value

/-- The value the last assignment to `key` gives. -/
def lastValue (pairs : List (Str × Str)) (key : Str) : Option Str :=
  (pairs.reverse.find? fun kv => kv.1 = key).map (·.2)

/-- `s` contains `t`. -/
def Contains (t s : Str) : Prop := ∃ a b, s = a ++ t ++ b

/-- The secondary namespace: the one asked for, or the default one. -/
def Namespace (asked : Option Str) (default ns : Str) : Prop :=
  (asked = some ns ∧ ns ≠ []) ∨ ((asked = none ∨ asked = some []) ∧ ns = default)

/-- The variable `key` below `mau` and the secondary namespace `ns`. -/
def below (ns key : Str) : Str := c%"mau." ++ ns ++ '.' :: key

/-- An environment file on the command line: `KEY=PATH`, or a path whose last component is
`KEY.EXTENSION`. -/
inductive FileArg : (arg key path : Str) → Prop where
  | keyed (key path : Str) (hk : '=' ∉ key) (hp : '=' ∉ path) : FileArg (key ++ '=' :: path) key path
  | plain (dir key ext : Str) (hd : dir = [] ∨ dir.getLast? = some '/') (hk : key ≠ [] ∧ '/' ∉ key)
      (he : ext ≠ [] ∧ '/' ∉ ext ∧ '.' ∉ ext) (hq : '=' ∉ dir ++ key ++ '.' :: ext) :
      FileArg (dir ++ key ++ '.' :: ext) key (dir ++ key ++ '.' :: ext)

/-- The directory part of a path: everything up to the last slash. -/
def dirOf (path : Str) : Str := (path.reverse.dropWhile (· ≠ '/')).reverse

/-- The message a Mau exception carries. -/
inductive Carries : Err → Message → Prop where
  | lexer (m : Msg) (l c : Nat) (src : Option Str) : Carries (.lexer m l c src) (.lexer m src l c)
  | parser (m : Msg) (ctx : Option Context) : Carries (.parser m ctx) (.parser m ctx)
  | visitor (m : Msg) (node : Option (Str × Context)) : Carries (.visitor m node) (.visitor m node)

/-- A place as it is written: `SOURCE:LINE,COLUMN-LINE,COLUMN`, without the source if there is none. -/
def placeText (c : Context) : Str :=
  (match c.source with | some (a :: s) => (a :: s) ++ c%":" | _ => []) ++
    natStr c.startLine ++ c%"," ++ natStr c.startColumn ++ c%"-" ++ natStr c.endLine ++ c%"," ++ natStr c.endColumn

/-- The same place with lines counted from 1. -/
def countedFromOne (c : Context) : Context := { c with startLine := c.startLine + 1, endLine := c.endLine + 1 }

/-- A place as it is shown to the user, with lines counted from 1. -/
def written (c : Context) : Str := placeText (countedFromOne c)

/-- The log says what kind of error it was, gives the text of its message and, if the error has one, its place. A visitor error is about a node, whose type and place are given; its place has lines counted from 1 already. -/
inductive LogsError : List LogLine → Err → Prop where
  | lexer (m : Msg) (l c : Nat) (src : Str) :
      LogsError [⟨c%"Lexer error: ", some m⟩, ⟨c%"Source: " ++ src, none⟩,
        ⟨c%"Position: (" ++ natStr (l + 1) ++ c%", " ++ natStr c ++ c%")", none⟩] (.lexer m l c (some src))
  | lexerNowhere (m : Msg) (l c : Nat) :
      LogsError [⟨c%"Lexer error: ", some m⟩, ⟨c%"Source: None", none⟩,
        ⟨c%"Position: (" ++ natStr (l + 1) ++ c%", " ++ natStr c ++ c%")", none⟩] (.lexer m l c none)
  | parser (m : Msg) : LogsError [⟨c%"Parser error: ", some m⟩] (.parser m none)
  | parserAt (m : Msg) (ctx : Context) :
      LogsError [⟨c%"Parser error: ", some m⟩, ⟨c%"Context: " ++ written ctx, none⟩] (.parser m (some ctx))
  | visitor (m : Msg) :
      LogsError [⟨c%"[MAU] Visitor error", none⟩, ⟨c%"[MAU] Message: ", some m⟩, ⟨c%"[MAU] Context: None", none⟩] (.visitor m none)
  | visitorAt (m : Msg) (type : Str) (ctx : Context) (h : type ≠ []) :
      LogsError [⟨c%"[MAU] Visitor error", none⟩, ⟨c%"[MAU] Message: ", some m⟩, ⟨c%"[MAU] Context: " ++ placeText ctx, none⟩,
        ⟨c%"[MAU] Node type: " ++ type, none⟩] (.visitor m (some (type, ctx)))
  | visitorUntyped (m : Msg) (ctx : Context) :
      LogsError [⟨c%"[MAU] Visitor error", none⟩, ⟨c%"[MAU] Message: ", some m⟩, ⟨c%"[MAU] Context: " ++ placeText ctx, none⟩]
        (.visitor m (some ([], ctx)))

/-- Processing a text for a visitor: the document is lexed and parsed, and the visitor gets the result and the variables as the
document leaves them. Here: it fails with `e`. -/
inductive ProcessFails (cfg : Config) (fuel : Nat) (env : Env) (v : CliVisitor) (text source : Str) : Err → Prop where
  | lexer {e : Err} (h : lexDocument (TextBuffer.ofText text 0 0 (some source)) = .error e) : ProcessFails cfg fuel env v text source e
  | parser {toks : List Token} {e : Err} (h1 : lexDocument (TextBuffer.ofText text 0 0 (some source)) = .ok toks)
      (h2 : parseDoc cfg fuel text env (some source) = .error e) : ProcessFails cfg fuel env v text source e
  | visitor {s : DocSt} {e : Err} (h1 : parseDoc cfg fuel text env (some source) = .ok s)
      (h2 : v.process s.env s.output = .error e) : ProcessFails cfg fuel env v text source e

end Spec
end Mau
