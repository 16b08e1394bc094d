import Verif.Props.Includes

/-!
# Documents that crash (C51)

The property C51 does not hold: these documents make the parser raise an exception that is not a Mau exception.
-/

namespace Mau
open Spec

/-- A condition without text, in a control line and in a macro (`if` and `ifeval`). -/
theorem C51_empty_condition_crash :
    failure (parseDoc {} 20 c%"@if\n") = some (.py .attributeError) ∧
    failure (parseDoc {} 20 c%"[if:](x)\n") = some (.py .attributeError) ∧
    failure (parseDoc {} 20 c%"[ifeval:](x)\n") = some (.py .attributeError) := by
  decide +kernel

/-- A variable definition that is not closed, and an include without arguments. -/
theorem C51_paragraph_crash :
    failure (parseDoc {} 20 c%":name\n") = some (.py .indexError) ∧
    failure (parseDoc {} 20 c%"<< image:\n") = some (.py .indexError) := by
  decide +kernel

/-- A header or a list item whose text is switched off by a condition. -/
theorem C51_nothing_left_crash :
    failure (parseDoc {} 20 c%":a:2\n\n= [if:a==1](x)\n") = some (.py .indexError) ∧
    failure (parseDoc {} 20 c%":a:2\n\n* [if:a==1](x)\n") = some (.py .indexError) := by
  decide +kernel

/-- A list that starts with something else than a number. -/
theorem C51_start_crash : failure (parseDoc {} 20 c%"[start=abc]\n# item\n") = some (.py .valueError) := by
  decide +kernel

/-- An include of a block group without the name of the group. -/
theorem C51_group_crash : failure (parseDoc {} 20 c%"<< blockgroup\n") = some (.py .keyError) := by
  decide +kernel

/-- A source block with an empty delimiter for markers. -/
theorem C51_delimiter_crash :
    failure (parseDoc {} 20 c%"[engine=source, marker_delimiter=]\n----\nx = 1\n----\n") = some (.py .valueError) := by
  decide +kernel

/-- An include of a file that exists and cannot be read. -/
theorem C51_unreadable_crash :
    failure (parseDoc { files := fun _ => .error false } 20 c%"<< mau:f\n") = some (.py .osError) := by
  decide +kernel

/-- An include, when one variable is a namespace of another one. -/
theorem C51_namespace_crash :
    failure (parseDoc (exampleFiles [(c%"f", c%"text\n")]) 20 c%":a:1\n:a.b:2\n<< mau:f\n") = some (.py .typeError) := by
  decide +kernel

/-- The macro `ifeval`, when the variable that holds the text is a namespace. -/
theorem C51_eval_crash :
    failure (parseDoc {} 20 c%":a:1\n:b.c:2\n\n[ifeval:a==1](b)\n") = some (.py .attributeError) := by
  decide +kernel

/-- A block or an include after the definition of a variable the parser takes its class of documents from. -/
theorem C51_wrapper_crash :
    failure (parseDoc {} 20 c%":mau.parser.document_wrapper:x\n\n----\ntext\n----\n") = some (.py .typeError) ∧
    failure (parseDoc (exampleFiles [(c%"f", c%"text\n")]) 20 c%":mau.parser.document_wrapper:x\n<< mau:f\n") = some (.py .typeError) := by
  decide +kernel

end Mau
