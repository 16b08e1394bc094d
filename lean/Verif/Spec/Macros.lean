import Verif.Spec.Arguments
import Verif.Spec.Conditions
import Verif.Spec.Inline

/-!
# Specification of macros

What the macros of inline text stand for. Texts inside the arguments are texts on their own.
-/

namespace Mau.Spec

/-- The parameters of the macros. -/
def linkNames : List Str := [c%"target", c%"text"]
def mailtoNames : List Str := [c%"email", c%"text"]
def headerNames : List Str := [c%"header_id", c%"text"]
def classNames : List Str := [c%"text"]
def imageNames : List Str := [c%"uri", c%"alt_text", c%"width", c%"height"]
def valueNames : List Str := [c%"value"]
def footnoteNames : List Str := [c%"name"]
def caseNames : List Str := [c%"true_case", c%"false_case"]

/-- The names of macros with a meaning of their own; names starting with `if` belong to control macros. -/
def macroNames : List Str :=
  [c%"link", c%"mailto", c%"header", c%"class", c%"image", c%"unicode", c%"raw", c%"footnote"]

/-- The condition of a control macro can be written in its name. -/
structure MacroCondition (cond var : Str) (neg : Bool) (value : Str) : Prop where
  text : ConditionText cond var neg value
  colon : ':' ∉ cond
  newline : '\n' ∉ cond

/-- The selected case of a control macro. -/
def selectedCase (as : List Arg) (b : Bool) : Option Str :=
  argument caseNames as (if b then c%"true_case" else c%"false_case")

/-- The macro `name` with the text of arguments `args` stands for the nodes `ns`. -/
inductive MacroGives (env : Env) : (name args : Str) → List Node → Prop where
  | link {args target text : Str} {as : List Arg} {ns : List Node} (h : PlainArgs args as)
      (h1 : argument linkNames as c%"target" = some target) (h2 : argument linkNames as c%"text" = some text)
      (hp : ParsesTo env text ns) : MacroGives env c%"link" args [node (.macroLink target) ns]
  | linkPlain {args target : Str} {as : List Arg} (h : PlainArgs args as)
      (h1 : argument linkNames as c%"target" = some target) (h2 : argument linkNames as c%"text" = none) :
      MacroGives env c%"link" args [node (.macroLink target) [node (.text target)]]
  | mailto {args email text : Str} {as : List Arg} {ns : List Node} (h : PlainArgs args as)
      (h1 : argument mailtoNames as c%"email" = some email) (h2 : argument mailtoNames as c%"text" = some text)
      (hp : ParsesTo env text ns) : MacroGives env c%"mailto" args [node (.macroLink (c%"mailto:" ++ email)) ns]
  | mailtoPlain {args email : Str} {as : List Arg} (h : PlainArgs args as)
      (h1 : argument mailtoNames as c%"email" = some email) (h2 : argument mailtoNames as c%"text" = none) :
      MacroGives env c%"mailto" args [node (.macroLink (c%"mailto:" ++ email)) [node (.text email)]]
  | header {args id text : Str} {as : List Arg} {ns : List Node} (h : PlainArgs args as)
      (h1 : argument headerNames as c%"header_id" = some id) (h2 : argument headerNames as c%"text" = some text)
      (hp : ParsesTo env text ns) : MacroGives env c%"header" args [node (.macroHeader 0 id none) ns]
  | headerPlain {args id : Str} {as : List Arg} (h : PlainArgs args as)
      (h1 : argument headerNames as c%"header_id" = some id) (h2 : argument headerNames as c%"text" = none) :
      MacroGives env c%"header" args [node (.macroHeader 0 id none)]
  | cls {args text : Str} {as : List Arg} {ns : List Node} (h : PlainArgs args as)
      (h1 : argument classNames as c%"text" = some text) (hp : ParsesTo env text ns) :
      MacroGives env c%"class" args [node (.macroClass (leftover classNames as)) ns]
  | image {args uri : Str} {as : List Arg} (h : PlainArgs args as) (h1 : argument imageNames as c%"uri" = some uri) :
      MacroGives env c%"image" args [node (.macroImage uri (argument imageNames as c%"alt_text")
        (argument imageNames as c%"width") (argument imageNames as c%"height"))]
  | unicode {args value : Str} {as : List Arg} (h : PlainArgs args as) (h1 : argument valueNames as c%"value" = some value) :
      MacroGives env c%"unicode" args [node (.macroUnicode value)]
  | raw {args value : Str} {as : List Arg} (h : PlainArgs args as) (h1 : argument valueNames as c%"value" = some value) :
      MacroGives env c%"raw" args [node (.macroRaw value)]
  | footnote {args name : Str} {as : List Arg} (h : PlainArgs args as) (h1 : argument footnoteNames as c%"name" = some name) :
      MacroGives env c%"footnote" args [node (.macroFootnote 0 name none)]
  /-- the selected case of a condition, as text -/
  | choice {args cond var value yes text : Str} {neg b : Bool} {as : List Arg} {ns : List Node} (h : PlainArgs args as)
      (hc : MacroCondition cond var neg value) (hb : conditionValue env var neg value = .ok b)
      (hy : selectedCase as true = some yes) (ht : selectedCase as b = some text) (hp : ParsesTo env text ns) :
      MacroGives env (c%"if:" ++ cond) args ns
  /-- a false condition without a second case -/
  | choiceNothing {args cond var value yes : Str} {neg : Bool} {as : List Arg} (h : PlainArgs args as)
      (hc : MacroCondition cond var neg value) (hb : conditionValue env var neg value = .ok false)
      (hy : selectedCase as true = some yes) (ht : selectedCase as false = none) :
      MacroGives env (c%"if:" ++ cond) args []
  /-- the selected case is the name of a variable, whose value is the text -/
  | choiceVariable {args cond var value yes v text : Str} {neg b : Bool} {as : List Arg} {ns : List Node} (h : PlainArgs args as)
      (hc : MacroCondition cond var neg value) (hb : conditionValue env var neg value = .ok b)
      (hy : selectedCase as true = some yes) (ht : selectedCase as b = some v)
      (hv : Env.get env v = .value (.str text)) (hp : ParsesTo env text ns) :
      MacroGives env (c%"ifeval:" ++ cond) args ns
  /-- any other name -/
  | other {name args : Str} {as : List Arg} (h : PlainArgs args as) (h1 : name ∉ macroNames)
      (h2 : startsWith name c%"if" = false) :
      MacroGives env name args [node (.macro name) [] { unnamed := positional as, named := keyed as }]

/-- "Missing mandatory ..." -/
def missing (what : Str) : Err := .parser (.text (c%"Missing mandatory " ++ what)) none

/-- The macro `name` with the text of arguments `args` is an error (given without its place). -/
inductive MacroFails (env : Env) : (name args : Str) → Err → Prop where
  | link {args : Str} {as : List Arg} (h : PlainArgs args as) (h1 : argument linkNames as c%"target" = none) :
      MacroFails env c%"link" args (missing c%"TARGET. Syntax: [link](TARGET, text).")
  | mailto {args : Str} {as : List Arg} (h : PlainArgs args as) (h1 : argument mailtoNames as c%"email" = none) :
      MacroFails env c%"mailto" args (missing c%"EMAIL. Syntax: [mailto](EMAIL, text).")
  | header {args : Str} {as : List Arg} (h : PlainArgs args as) (h1 : argument headerNames as c%"header_id" = none) :
      MacroFails env c%"header" args (missing c%"ID. Syntax: [header](ID, TEXT).")
  | cls {args : Str} {as : List Arg} (h : PlainArgs args as) (h1 : argument classNames as c%"text" = none) :
      MacroFails env c%"class" args (missing c%"TEXT. Syntax: [class](TEXT, class1, class2, ...).")
  | image {args : Str} {as : List Arg} (h : PlainArgs args as) (h1 : argument imageNames as c%"uri" = none) :
      MacroFails env c%"image" args (missing c%"URI. Syntax: [image](URI, alt_text, width, height).")
  | unicode {args : Str} {as : List Arg} (h : PlainArgs args as) (h1 : argument valueNames as c%"value" = none) :
      MacroFails env c%"unicode" args (missing c%"VALUE. Syntax: [unicode](VALUE).")
  | raw {args : Str} {as : List Arg} (h : PlainArgs args as) (h1 : argument valueNames as c%"value" = none) :
      MacroFails env c%"raw" args (missing c%"VALUE. Syntax: [raw](VALUE).")
  | footnote {args : Str} {as : List Arg} (h : PlainArgs args as) (h1 : argument footnoteNames as c%"name" = none) :
      MacroFails env c%"footnote" args (missing c%"NAME. Syntax: [footnote](NAME).")
  /-- a condition on an undefined variable -/
  | choiceUndefined {args cond var value yes op : Str} {neg : Bool} {as : List Arg} (h : PlainArgs args as)
      (ho : op = c%"if" ∨ op = c%"ifeval") (hc : MacroCondition cond var neg value) (hb : Dict.get? env var = none)
      (hy : selectedCase as true = some yes) :
      MacroFails env (op ++ c%":" ++ cond) args (.parser (.undefinedVariable var) none)
  /-- a text that is not a condition -/
  | choiceMalformed {args cond op : Str} {as : List Arg} (h : PlainArgs args as) (ho : op = c%"if" ∨ op = c%"ifeval")
      (hne : cond ≠ []) (hc : ¬ ∃ var neg value, ConditionText cond var neg value) (h1 : ':' ∉ cond) (h2 : '\n' ∉ cond) :
      MacroFails env (op ++ c%":" ++ cond) args
        (.parser (.text (c%"Wrong condition syntax: '" ++ cond ++ c%"' (probably missing or incorrect comparison).")) none)
  /-- no case at all -/
  | choiceNoCase {args cond var value op : Str} {neg : Bool} {as : List Arg} (h : PlainArgs args as)
      (ho : op = c%"if" ∨ op = c%"ifeval") (hc : MacroCondition cond var neg value)
      (hy : selectedCase as true = none) :
      MacroFails env (op ++ c%":" ++ cond) args
        (.parser (.text c%"Control macro is missing the mandatory value for the true case.") none)
  /-- the selected text is an error -/
  | choiceText {args cond var value yes text : Str} {neg b : Bool} {as : List Arg} {er : Err} (h : PlainArgs args as)
      (hc : MacroCondition cond var neg value) (hb : conditionValue env var neg value = .ok b)
      (hy : selectedCase as true = some yes) (ht : selectedCase as b = some text) (hp : ParseFails env text er) :
      MacroFails env (c%"if:" ++ cond) args er
  /-- the text shown by a macro is an error -/
  | shown {name key args text first : Str} {names : List Str} {as : List Arg} {er : Err} (h : PlainArgs args as)
      (hm : (name, names, key) ∈ [(c%"link", linkNames, c%"target"), (c%"mailto", mailtoNames, c%"email"), (c%"header", headerNames, c%"header_id"),
        (c%"class", classNames, c%"text")])
      (h1 : argument names as key = some first) (h2 : argument names as c%"text" = some text) (hp : ParseFails env text er) :
      MacroFails env name args er
  /-- the selected case is not the name of a variable -/
  | evalUndefined {args cond var value yes v : Str} {neg b : Bool} {as : List Arg} (h : PlainArgs args as)
      (hc : MacroCondition cond var neg value) (hb : conditionValue env var neg value = .ok b)
      (hy : selectedCase as true = some yes) (ht : selectedCase as b = some v) (hv : Env.get env v = .default) :
      MacroFails env (c%"ifeval:" ++ cond) args (.parser (.undefinedVariable v) none)
  /-- nothing to evaluate -/
  | evalNothing {args cond var value yes : Str} {neg : Bool} {as : List Arg} (h : PlainArgs args as)
      (hc : MacroCondition cond var neg value) (hb : conditionValue env var neg value = .ok false)
      (hy : selectedCase as true = some yes) (ht : selectedCase as false = none) :
      MacroFails env (c%"ifeval:" ++ cond) args
        (.parser (.text c%"The test result is negative but no value has been defined for that case.") none)
  /-- the value of the variable is an error -/
  | evalText {args cond var value yes v text : Str} {neg b : Bool} {as : List Arg} {er : Err} (h : PlainArgs args as)
      (hc : MacroCondition cond var neg value) (hb : conditionValue env var neg value = .ok b)
      (hy : selectedCase as true = some yes) (ht : selectedCase as b = some v)
      (hv : Env.get env v = .value (.str text)) (hp : ParseFails env text er) :
      MacroFails env (c%"ifeval:" ++ cond) args er
  /-- a control macro without a condition -/
  | noCondition {args name : Str} {as : List Arg} (h : PlainArgs args as) (hn : startsWith name c%"if" = true) (hc : ':' ∉ name) :
      MacroFails env name args (.parser (.text (c%"Macro name '" ++ name ++ c%"' must be in the form 'operator:condition'.")) none)
  /-- an unknown operator -/
  | operator {args op cond : Str} {as : List Arg} (h : PlainArgs args as) (hn : startsWith op c%"if" = true) (ho : op ≠ c%"if") (he : op ≠ c%"ifeval")
      (h1 : ':' ∉ op) (h2 : ':' ∉ cond) :
      MacroFails env (op ++ c%":" ++ cond) args (.parser (.text (c%"Control operator '" ++ op ++ c%"' is not supported.")) none)

end Mau.Spec
