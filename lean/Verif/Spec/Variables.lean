import Verif.Spec.Includes

/-!
# Specification of the variables a document leaves
-/

namespace Mau.Spec

/-- The line defines the variable `k`: `:k:value`, `:+k:` or `:-k:`. -/
def LineDefines (l k : Str) : Prop :=
  ∃ value, l = ':' :: (k ++ ':' :: value) ∨ l = ':' :: '+' :: (k ++ ':' :: value) ∨ l = ':' :: '-' :: (k ++ ':' :: value)

end Mau.Spec
