import Verif.Basic

/-!
# Specification: scanning up to an unescaped stop

Used for tokens and for characters.
-/

namespace Mau

namespace Spec
variable {α : Type}

/-- Split before the first stop that is not escaped; an escape and the element after it are
taken together. Without such a stop everything is taken. -/
def upto (stop esc : α → Bool) : List α → List α × List α
  | [] => ([], [])
  | t :: ts =>
    if stop t then ([], t :: ts)
    else if esc t then
      match ts with
      | [] => ([t], [])
      | u :: us => (t :: u :: (upto stop esc us).1, (upto stop esc us).2)
    else (t :: (upto stop esc ts).1, (upto stop esc ts).2)

/-- Remove the escapes in front of stops (and a dangling one at the end), unless they are to be
preserved. -/
def unesc (stop esc : α → Bool) (preserve : Bool) : List α → List α
  | [] => []
  | t :: ts =>
    if esc t then
      match ts with
      | [] => if preserve then [t] else []
      | u :: us =>
        if stop u && !preserve then u :: unesc stop esc preserve us
        else t :: u :: unesc stop esc preserve us
    else t :: unesc stop esc preserve ts

/-- The escape character. -/
def escChar (c : Char) : Bool := c == '\\'

/-- The text up to the first unescaped `stop`, and the text after it; `none` if there is none. -/
def closing (stop : Char) (s : Str) : Option (Str × Str) :=
  match upto (· == stop) escChar s with
  | (_, []) => none
  | (raw, _ :: rest) => some (raw, rest)

/-- `raw` contains no unescaped `stop` and does not end in a lone backslash: between an opening
mark and the closing mark `stop`, `raw` is exactly the content. -/
inductive Span (stop : Char) : Str → Prop where
  | nil : Span stop []
  | plain (c : Char) (r : Str) (h1 : c ≠ stop) (h2 : c ≠ '\\') (h : Span stop r) : Span stop (c :: r)
  | esc (c : Char) (r : Str) (h : Span stop r) : Span stop ('\\' :: c :: r)

/-- The content with `\stop` replaced by `stop`. -/
def unescape (stop : Char) (raw : Str) : Str := unesc (· == stop) escChar false raw

end Spec

end Mau
