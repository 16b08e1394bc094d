import Verif.Lemmas.Dict

/-!
# Specification of nested configurations

What a nested configuration dictionary holds at a path of keys, independently of the
functions that flatten and nest dictionaries.
-/

namespace Mau
namespace Spec

/-- The value a nested configuration holds at a path of keys: `d["a"]["b"]` for the path
`["a", "b"]`. An empty dictionary counts as a value, a non-empty one does not. -/
def at? : List Str → Nested → Option Val
  | [], .leaf v => some v
  | [], .dict [] => some .emptyDict
  | [], .dict (_ :: _) => none
  | _ :: _, .leaf _ => none
  | k :: ks, .dict d =>
    match Dict.get? d k with
    | none => none
    | some n => at? ks n

/-- `p` and `q` are different and one of the names `p`, `q` is a dotted prefix of the other one,
as `a` is of `a.b`. -/
def DottedPrefix (p q : Str) : Prop := ∃ r, q = p ++ '.' :: r

/-- A configuration a user writes in a nested file: keys are not empty, contain no dots and
are distinct at each level. -/
inductive Clean : Nested → Prop
  | leaf (v : Val) (h : v ≠ .emptyDict) : Clean (.leaf v)
  | dict (d : List (Str × Nested)) (hd : Dict.Distinct d) (hk : ∀ kv ∈ d, kv.1 ≠ [] ∧ '.' ∉ kv.1)
      (hs : ∀ kv ∈ d, Clean kv.2) : Clean (.dict d)

end Spec
end Mau
