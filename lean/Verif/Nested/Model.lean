import Verif.Base.Dict

/-!
# Model of `compare_nested`

Source: `/repo/weldx/util/util.py` 185-302, with `remap`, `default_enter` and `get_path` of
`boltons.iterutils`.

Lists, tuples and dictionaries are entered, everything else is a leaf. Containers carry the identity of the
object, because `remap` enters each object only once. Simplifications: leaves are strings or opaque values
with a decidable equality that includes the type (arrays, quantities, sets and so on); keys of dictionaries are
integers or strings; `get_path` does not convert strings to indices.
-/

namespace Weldx.Nested

/-- exceptions: `lookup` stands for `KeyError`, `IndexError`, `PathAccessError` and the `RuntimeError`s of
`_visit`, which are all caught -/
inductive CErr
  | lookup | typeError | attributeError
  deriving DecidableEq, Repr

/-- keys of dictionaries and positions in sequences -/
inductive Key
  | int (n : Int)
  | str (s : List Char)
  deriving DecidableEq, Repr

/-- `bool(key)` -/
def Key.truthy : Key → Bool
  | .int n => decide (n ≠ 0)
  | .str s => !s.isEmpty

/-- values that are not entered -/
inductive Leaf (A : Type)
  | atom (a : A)
  | str (s : List Char)
  deriving DecidableEq

/-- types of containers -/
inductive Kind
  | list | tuple | dict
  deriving DecidableEq, Repr

mutual
/-- nested data; entries of lists and tuples are numbered -/
inductive Value (A : Type)
  | leaf (l : Leaf A)
  | cont (id : Nat) (kind : Kind) (es : Entries A)
/-- the items of a container in order -/
inductive Entries (A : Type)
  | nil
  | cons (k : Key) (v : Value A) (es : Entries A)
end

variable {A : Type}

/-- items as list -/
def Entries.toList : Entries A → List (Key × Value A)
  | .nil => []
  | .cons k v es => (k, v) :: es.toList

/-- `len` -/
def Entries.length (es : Entries A) : Nat := es.toList.length

/-- `value[key]` -/
def index : Value A → Key → Except CErr (Value A)
  | .leaf (.atom _), _ => .error .typeError
  | .leaf (.str s), .int n =>
    match s[(if n < 0 then n + s.length else n).toNat]? with
    | some c => if n + s.length < 0 then .error .lookup else .ok (.leaf (.str [c]))
    | none => .error .lookup
  | .leaf (.str _), .str _ => .error .typeError
  | .cont _ .dict es, k => match Dict.get? es.toList k with
    | some v => .ok v
    | none => .error .lookup
  | .cont _ _ es, .int n => match Dict.get? es.toList (.int (if n < 0 then n + es.length else n)) with
    | some v => .ok v
    | none => .error .lookup
  | .cont _ _ _, .str _ => .error .typeError

/-- `iterutils.get_path(value, path)`; every failure is a `PathAccessError` -/
def getPath (v : Value A) : List Key → Except CErr (Value A)
  | [] => .ok v
  | k :: ks => match index v k with
    | .ok w => getPath w ks
    | .error _ => .error .lookup

/-- truth value of the second result of `_enter`, `util.py` 215-223: leaves are not entered (`False`), an
`ItemsView` is false if it is empty, an `enumerate` object is always true -/
def entered : Value A → Bool
  | .leaf _ => false
  | .cont _ .dict es => !es.toList.isEmpty
  | .cont _ _ _ => true

/-- `len` of sequences -/
def seqLength : Value A → Option Nat
  | .leaf (.str s) => some s.length
  | .leaf (.atom _) => none
  | .cont _ .dict _ => none
  | .cont _ _ es => some es.length

/-- `len(data_structure)` for an entered container -/
def contLength : Value A → Nat
  | .leaf _ => 0
  | .cont _ _ es => es.length

/-- the check of the keys, `util.py` 250-253 -/
def checkKeys (ods ds : Value A) : Except CErr Unit :=
  match ods with
  | .cont _ .dict es => match ds with
    | .cont _ .dict es' =>
      if ((Dict.keys es.toList).any fun k => decide (k ∉ Dict.keys es'.toList) && k.truthy) ||
          ((Dict.keys es'.toList).any fun k => decide (k ∉ Dict.keys es.toList) && k.truthy)
      then .error .lookup else .ok ()
    | _ => .error .attributeError
  | _ => .ok ()

/-- `_compare`, `util.py` 200-213: type and value are equal. Containers get here only if they are empty
dictionaries. -/
def compare [DecidableEq A] (x y : Value A) : Bool :=
  match x, y with
  | .leaf l, .leaf l' => decide (l = l')
  | .cont _ .dict es, .cont _ .dict es' => es.toList.isEmpty && es'.toList.isEmpty
  | _, _ => false

/-- `_visit`, `util.py` 225-256 -/
def visit [DecidableEq A] (a b : Value A) (path : List Key) (key : Key) (value : Value A) : Except CErr Unit := do
  let ds ← getPath a path
  let ods ← getPath b path
  let ov ← index ods key
  if entered value then .ok ()
  else
    match seqLength ods with
    | some n => if n ≠ contLength ds then .error .lookup else .ok ()
    | none => .ok ()
    checkKeys ods ds
    if compare value ov then .ok () else .error .lookup

mutual
/-- `remap` for one item: containers that have not been entered before are entered first, then the item is
visited. The result is the registry of entered objects. -/
def walkValue [DecidableEq A] (a b : Value A) (path : List Key) (key : Key) (r : List Nat) :
    Value A → Except CErr (List Nat)
  | .leaf l => do
    visit a b path key (.leaf l)
    .ok r
  | .cont id kind es =>
    if id ∈ r then do
      visit a b path key (.cont id kind es)
      .ok r
    else do
      let r ← walkEntries a b (path ++ [key]) (id :: r) es
      visit a b path key (.cont id kind es)
      .ok r
/-- `remap` for the items of a container -/
def walkEntries [DecidableEq A] (a b : Value A) (path : List Key) (r : List Nat) :
    Entries A → Except CErr (List Nat)
  | .nil => .ok r
  | .cons k v es => do
    let r ← walkValue a b path k r v
    walkEntries a b path r es
end

/-- `compare_nested`, `util.py` 258-302. If `a` is a leaf, it is visited with the key `None`, which no sequence
accepts and no dictionary contains. -/
def compareNested [DecidableEq A] (a b : Value A) : Except CErr Bool :=
  let res := match a with
    | .cont id _ es => (walkEntries a b [] [id] es).map fun _ => ()
    | .leaf _ => match b with
      | .cont _ .dict _ => .error .lookup
      | _ => .error .typeError
  match res with
  | .ok _ => .ok true
  | .error .lookup => .ok false
  | .error e => .error e

end Weldx.Nested
