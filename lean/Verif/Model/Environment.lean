import Verif.Basic

/-!
# Ordered dictionaries and the environment

Models `mau/environment/helpers.py` and `mau/environment/environment.py`.
-/

namespace Mau

/-- A Python `dict` with string keys: an association list in insertion order.
All operations keep the keys distinct. -/
abbrev Dict (α : Type) := List (Str × α)

namespace Dict

/-- `d.get(k)`. -/
def get? {α} : Dict α → Str → Option α
  | [], _ => none
  | (k', v) :: d, k => if k' = k then some v else get? d k

/-- `d[k] = v`: replaces in place or appends. -/
def set {α} : Dict α → Str → α → Dict α
  | [], k, v => [(k, v)]
  | (k', v') :: d, k, v => if k' = k then (k', v) :: d else (k', v') :: set d k v

/-- `d.update(e)`. -/
def update {α} (d e : Dict α) : Dict α := e.foldl (fun d kv => set d kv.1 kv.2) d

/-- `d.pop(k, None)`: the dictionary without the key. -/
def erase {α} (d : Dict α) (k : Str) : Dict α := d.filter (fun kv => kv.1 ≠ k)

/-- `k in d`. -/
def has {α} (d : Dict α) (k : Str) : Bool := (get? d k).isSome

/-- `list(d.keys())`. -/
def keys {α} (d : Dict α) : List Str := d.map (·.1)

end Dict

/-- The values of configuration variables. `list` is a list of strings and `other` any
other Python object (number, boolean, callable, ...); both carry the string `str(value)`.
`None` is not modelled as a value (`get` does not tell it from an absent variable).
`emptyDict` is the only dictionary that can be the value of a flat variable. -/
inductive Val where
  | str (s : Str)
  | list (xs : List Str) (rendered : Str)
  | emptyDict
  | other (rendered : Str)
  deriving DecidableEq, Repr

/-- Python's `str(value)`. -/
def Val.pyStr : Val → Str
  | .str s => s
  | .list _ r => r
  | .emptyDict => c%"{}"
  | .other r => r

/-- A nested configuration dictionary. -/
inductive Nested where
  | leaf (v : Val)
  | dict (kvs : List (Str × Nested))
  deriving Repr

/-- environment/helpers.py:22-24 — the key below a parent key (an absent or empty
parent key adds no prefix). -/
def joinKey (parent : Str) (key : Str) : Str :=
  if parent.isEmpty then key else parent ++ ['.'] ++ key

mutual
/-- environment/helpers.py:26-33 — the value of one (already prefixed) key. -/
def flattenVal (key : Str) : Nested → Dict Val
  | .leaf v => [(key, v)]
  | .dict [] => [(key, .emptyDict)]
  | .dict (kv :: kvs) => flattenItems key (kv :: kvs) []
/-- environment/helpers.py:19-35 — the loop of `flatten_nested_dict`; `parent = ""`
stands for an absent parent key too. -/
def flattenItems (parent : Str) : List (Str × Nested) → Dict Val → Dict Val
  | [], flat => flat
  | (k, v) :: rest, flat =>
    flattenItems parent rest (flat.update (flattenVal (joinKey parent k) v))
end

/-- environment/helpers.py:4-35 — `flatten_nested_dict` (separator `.`). -/
def flattenNested (kvs : List (Str × Nested)) (parent : Str := []) : Dict Val :=
  flattenItems parent kvs []

/-- `key.split(".")` gives the path of a flat key; helpers.py:53-68 splits once and recurses. -/
def keyPath (key : Str) : List Str := splitChar '.' key

/-- environment/helpers.py:53-68 — `_split` on the path of the key. Descending into a value
that is not a dictionary raises: `str`/`list`/... objects do not support item assignment
(TypeError) and have no `setdefault` (AttributeError). Not modelled: an empty dictionary that is the value of a variable is not
copied, so that nesting `a = {}` together with `a.b = 1` puts `b` into the value of `a`, which the environment keeps. -/
def nestInsert : List Str → Val → List (Str × Nested) → Except Err (List (Str × Nested))
  | [], _, out => .ok out      -- not reachable: a path has at least one element
  | [k], v, out => .ok (Dict.set out k (match v with | .emptyDict => .dict [] | v => .leaf v))
  | k :: k2 :: ks, v, out =>
    match (Dict.get? out k).getD (.dict []) with
    | .leaf _ => .error (.py (if ks.isEmpty then .typeError else .attributeError))
    | .dict sub =>
      match nestInsert (k2 :: ks) v sub with
      | .error e => .error e
      | .ok sub' => .ok (Dict.set out k (.dict sub'))

/-- environment/helpers.py:70-75 — the loop of `nest_flattened_dict`. -/
def nestFlat : Dict Val → List (Str × Nested) → Except Err (List (Str × Nested))
  | [], out => .ok out
  | (k, v) :: rest, out =>
    match nestInsert (keyPath k) v out with
    | .error e => .error e
    | .ok out' => nestFlat rest out'

/-- environment/environment.py:6-18 — an `Environment` is its flat dictionary of variables. -/
abbrev Env := Dict Val

namespace Env

/-- environment/environment.py:43-49 — `dupdate` with a dictionary and an optional
(empty = absent) namespace. -/
def dupdate (e : Env) (other : List (Str × Nested)) (ns : Str := []) : Env :=
  let other := if ns.isEmpty then other else [(ns, .dict other)]
  Dict.update e (flattenNested other)

/-- environment/environment.py:20-24 — `Environment.from_dict`. -/
def fromDict (other : List (Str × Nested)) (ns : Str := []) : Env := dupdate [] other ns

/-- A flat dictionary seen as a dictionary of values (the empty dictionary is one). -/
def asItems (e : Dict Val) : List (Str × Nested) :=
  e.map fun kv => (kv.1, match kv.2 with | .emptyDict => .dict [] | v => .leaf v)

/-- environment/environment.py:30-41 — `update`. -/
def update (e other : Env) (ns : Str := []) (overwrite : Bool := true) : Env :=
  let new := fromDict (asItems other) ns
  if overwrite then Dict.update e new else Dict.update new e

/-- environment/environment.py:51-52 — `asdict`. -/
def asdict (e : Env) : Except Err (List (Str × Nested)) := nestFlat e []

/-- environment/environment.py:26-28 — `from_environment`. -/
def fromEnvironment (e : Env) (ns : Str := []) : Except Err Env :=
  match e.asdict with
  | .error err => .error err
  | .ok d => .ok (fromDict d ns)

/-- environment/environment.py:57-61 — `__setitem__`. -/
def setitem (e : Env) (key : Str) (value : Nested) : Env := dupdate e [(key, value)]

/-- environment/environment.py:63-64 — `__getitem__`. -/
def getitem (e : Env) (key : Str) : Except Err Val :=
  match Dict.get? e key with
  | some v => .ok v
  | none => .error (.py .keyError)

/-- The result of `get`: a variable, a namespace, or the default. -/
inductive GetResult where
  | value (v : Val)
  | namespace (e : Env)
  | default
  deriving DecidableEq, Repr

/-- environment/environment.py:66-103 — `get`. -/
def get (e : Env) (key : Str) : GetResult :=
  match Dict.get? e key with
  | some v => .value v
  | none =>
    let pre := key ++ ['.']
    let sub := (e.filter (fun kv => startsWith kv.1 pre)).map (fun kv => (kv.1.drop pre.length, kv.2))
    if sub.isEmpty then .default else .namespace (fromDict (asItems sub))

end Env

end Mau
