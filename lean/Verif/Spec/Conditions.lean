import Verif.Spec.LineForms
import Verif.Model.Environment

/-!
# Specification of conditions
-/

namespace Mau.Spec

/-- The text of a condition: a variable name, `==` or `!=` (`neg`), a value; any spaces around the
comparison. -/
inductive ConditionText : Str → (var : Str) → (neg : Bool) → (value : Str) → Prop where
  | mk {var sp1 sp2 value : Str} (neg : Bool) (hne : var ≠ [])
      (hvar : ∀ c ∈ var, c.isAlphanum ∨ c = '_' ∨ c = '.' ∨ c = '+' ∨ c = '-') (h1 : Spaces sp1) (h2 : Spaces sp2)
      (hv : value.head? ≠ some ' ') :
      ConditionText (var ++ sp1 ++ (if neg then c%"!=" else c%"==") ++ sp2 ++ value) var neg value

/-- The value of a condition in an environment: undefined variables are an error (at the given place). -/
def conditionValue (env : Env) (var : Str) (neg : Bool) (value : Str) (place : Option Context := none) : Except Err Bool :=
  match Dict.get? env var with
  | none => .error (.parser (.undefinedVariable var) place)
  | some v => .ok (if neg then decide (v ≠ .str value) else decide (v = .str value))

end Mau.Spec
