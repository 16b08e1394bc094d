import Verif.Spec.Macros

/-!
# Specification: characters of inline text
-/

namespace Mau.Spec

/-- Put a backslash before the special characters of inline text and before curly braces. -/
def escapeText (t : Str) : Str :=
  t.flatMap fun c => if inlineSpecial.contains c || c == '{' || c == '}' then ['\\', c] else [c]

mutual
/-- The text shown by a node of inline text without macros. -/
def shown : Node → Str
  | .mk (.word v) _ _ _ _ _ => v
  | .mk (.text v) _ _ _ _ _ => v
  | .mk (.verbatim v) _ _ _ _ _ => v
  | .mk _ _ _ content _ _ => shownAll content
/-- The same for lists of nodes. -/
def shownAll : List Node → Str
  | [] => []
  | n :: ns => shown n ++ shownAll ns
end

/-- The ordinary characters of a text, in order. -/
def ordinary (s : Str) : Str := s.filter fun c => !inlineSpecial.contains c

end Mau.Spec
