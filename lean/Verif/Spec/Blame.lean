import Verif.Spec.Managers
import Verif.Spec.Positions

/-!
# Specification: where errors point

An error of Mau carries a position: the file and the line on which the user should look. `Blames cfg src first last e`: the error `e`, raised while
the lines `first` to `last` of the file `src` are processed, points at one of these lines. Lines are counted from 0.
-/

namespace Mau.Spec

/-- The error points at one of the lines `first` to `last` of the file `src`. -/
inductive Points (src : Option Str) (first last : Nat) : Err → Prop where
  | lexer {m : Msg} {line col : Nat} (h1 : first ≤ line) (h2 : line ≤ last) : Points src first last (.lexer m line col src)
  | parser {m : Msg} {c : Context} (hs : c.source = src) (h1 : first ≤ c.startLine) (h2 : c.startLine ≤ last) : Points src first last (.parser m (some c))

/-- The error points at one of the lines `first` to `last` of the file `src`, or
* it is the error that the parser raises for the text of a file that is included;
* it says that a footnote is defined twice (the nodes of footnotes other than source blocks have no position, so this error has none);
* it is not an error of Mau. -/
inductive Blames (cfg : Config) (src : Option Str) (first last : Nat) : Err → Prop where
  | here {e : Err} (h : Points src first last e) : Blames cfg src first last e
  | included {e : Err} {uri text : Str} {n : Nat} {req : NestedReq} (hf : cfg.files uri = .ok text) (ht : req.text = text) (hs : req.source = some uri)
      (hl : req.startLine = 0) (hq : Fresh req) (he : parseDocument cfg n req = .error e) : Blames cfg src first last e
  | footnote (name : Str) : Blames cfg src first last (.parser (msgDuplicateFootnote name) (some Context.empty))
  | other {e : Err} (h : e.isMau = false) : Blames cfg src first last e

end Mau.Spec
