import Verif.Base.Dict
import Mathlib.Data.Nat.Digits.Defs

/-!
# Model of the shape validator

Source: `/repo/weldx/asdf/validators.py` 117-560 and `_get_instance_shape`, `/repo/weldx/asdf/util.py`
591-613.

Strings are lists of characters. Simplifications: `str.isalnum` and `str.isnumeric` are restricted to ASCII
characters; entries of a `wx_shape` list are integers, strings or `None` (no floating point numbers or
booleans); shapes are lists of integers; strings contain no line breaks.
-/

namespace Weldx.Val

/-- exceptions; `syntaxError` is `WxSyntaxError`, `types.py`, which is no `ValidationError` -/
inductive VErr
  | syntaxError | validationError | indexError | typeError | valueError | attributeError
  deriving DecidableEq, Repr

/-- an entry of a `wx_shape` list -/
inductive Item
  | int (n : Int)
  | str (s : List Char)
  | null
  deriving DecidableEq, Repr

/-- decimal digits of a number -/
def natChars (n : Nat) : List Char :=
  if n = 0 then ['0'] else (Nat.digits 10 n).reverse.map (fun d => Char.ofNat (48 + d))

/-- `str(exp)` -/
def Item.chars : Item → List Char
  | .int n => if n < 0 then '-' :: natChars n.natAbs else natChars n.natAbs
  | .str s => s
  | .null => ['N', 'o', 'n', 'e']

/-- `str.isnumeric` for ASCII -/
def isNumeric (s : List Char) : Bool := !s.isEmpty && s.all Char.isDigit
/-- `str.isalnum` for ASCII -/
def isAlnum (s : List Char) : Bool := !s.isEmpty && s.all Char.isAlphanum
/-- `int(s)` of a numeric string -/
def toInt (s : List Char) : Nat := s.foldl (fun a c => 10 * a + (c.toNat - 48)) 0

/-- `s.split(sep)` -/
def split (sep : Char) : List Char → List (List Char)
  | [] => [[]]
  | c :: cs => if c = sep then [] :: split sep cs else
    match split sep cs with
    | h :: t => (c :: h) :: t
    | [] => [[c]]

/-- `"..." in s` -/
def hasDots (s : List Char) : Bool := decide (['.', '.', '.'] <:+: s)

/-- one limit of an interval, `validators.py` 169-180 -/
def limit (s : List Char) (open_ : Int) : Except VErr Int :=
  if s = [] then .ok open_ else if isNumeric s then .ok (toInt s) else .error .syntaxError

/-- `_compare`, `validators.py` 117-190. For `int(exp_string)` only numeric strings are modelled, which is
what remains after `_validate_expected_list`. -/
def compare (i : Int) (exp : List Char) : Except VErr Bool :=
  if i < 0 then .error .syntaxError
  else if '~' ∈ exp then
    match split '~' exp with
    | a :: b :: _ => do
      let lo ← limit a 0
      let hi ← limit b i
      if lo > hi then .error .syntaxError else .ok (decide (lo ≤ i ∧ i ≤ hi))
    | _ => .error .indexError
  else if isNumeric exp then .ok (decide (i = toInt exp)) else .error .valueError

/-- removing blanks, `validators.py` 213-217 -/
def Item.strip : Item → Item
  | .str s => .str (s.filter (· ≠ ' '))
  | x => x

/-- `_prepare_list`, `validators.py` 193-226 -/
def prepare (shape : List Int) (exp : List Item) : Except VErr (List Int × List Item) :=
  let exp := exp.map Item.strip
  match exp with
  | [] => .error .indexError
  | e :: _ => .ok (if '(' ∈ e.chars || hasDots e.chars then (shape.reverse, exp.reverse) else (shape, exp))

/-- `_is_range_format_valid`, `validators.py` 229-248 -/
def isRangeFormatValid (s : List Char) : Bool :=
  if '~' ∈ s then
    if (split '~' s).length ≠ 2 then false
    else isAlnum (s.filter (· ≠ '~')) || (s.filter (· ≠ '~')).isEmpty
  else isAlnum s

/-- group 1 of `re.search(r"\((.*)\)", s)` -/
def inner (s : List Char) : Option (List Char) :=
  match s.dropWhile (· ≠ '(') with
  | [] => none
  | _ :: t => match t.reverse.dropWhile (· ≠ ')') with
    | [] => none
    | _ :: u => some u.reverse

/-- `_validate_expected_list`, `validators.py` 251-307; the number is the variable `validator` -/
def validateExpected : Nat → List Item → Except VErr Unit
  | _, [] => .ok ()
  | v, e :: es =>
    if v = 1 ∧ ¬ ('(' ∈ e.chars ∨ hasDots e.chars) then .error .syntaxError
    else if v = 2 then .error .syntaxError
    else if hasDots e.chars then
      if e ≠ .str ['.', '.', '.'] then .error .syntaxError else validateExpected 2 es
    else if '(' ∈ e.chars then
      match inner e.chars with
      | none => .error .syntaxError
      | some t =>
        if t.length + 2 ≠ e.chars.length ∨ ¬ isRangeFormatValid t then .error .syntaxError
        else validateExpected 1 es
    else if ¬ isRangeFormatValid e.chars then .error .syntaxError
    else validateExpected v es

/-- comparison with one dimension, `validators.py` 363-373; `none` stands for `return False` -/
def checkDim (shape : List Int) (i : Nat) (d : List (Item × Int)) (e : Item) :
    Except VErr (Option (List (Item × Int))) :=
  if isAlnum e.chars && !isNumeric e.chars then
    match Dict.get? d e with
    | none => match shape[i]? with
      | none => .error .indexError
      | some v => .ok (some (Dict.set d e v))
    | some w => match shape[i]? with
      | none => .error .indexError
      | some v => if v ≠ w then .ok none else .ok (some d)
  else match shape[i]? with
    | none => .ok none
    | some v => match compare v e.chars with
      | .error x => .error x
      | .ok b => if b then .ok (some d) else .ok none

/-- the loop of `_compare_lists`, `validators.py` 349-373; the flag is `has_variable_dim_num` -/
def compareLoop (shape : List Int) : Nat → List (Item × Int) → List Item →
    Except VErr (Option (List (Item × Int) × Bool))
  | _, d, [] => .ok (some (d, false))
  | i, d, e :: es =>
    if hasDots e.chars then .ok (some (d, true))
    else if '(' ∈ e.chars ∧ ¬ i < shape.length then compareLoop shape (i + 1) d es
    else
      match (if '(' ∈ e.chars then (inner e.chars).map Item.str else some e) with
      | none => .error .attributeError
      | some e => match checkDim shape i d e with
        | .error x => .error x
        | .ok none => .ok none
        | .ok (some d) => compareLoop shape (i + 1) d es

/-- `_compare_lists`, `validators.py` 310-378 -/
def compareLists (shape : List Int) (exp : List Item) : Except VErr (Option (List (Item × Int))) :=
  match compareLoop shape 0 [] exp with
  | .error x => .error x
  | .ok none => .ok none
  | .ok (some (d, dots)) => if shape.length > exp.length ∧ ¬ dots then .ok none else .ok (some d)

/-- `_validate_instance_shape` for a known shape, `validators.py` 412-424 -/
def validateShape (shape : List Int) (exp : List Item) : Except VErr (List (Item × Int)) := do
  let (s, e) ← prepare shape exp
  validateExpected 0 e
  match ← compareLists s e with
  | none => .error .validationError
  | some d => .ok d

/-! ### nested shapes -/

/-- A node of the tree. `shape` of a mapping is the result of `_get_instance_shape`: the value of the key
`shape`, or what the converter of a tagged mapping returns. `other`: lists, strings and so on. -/
inductive Node
  | number
  | mapping (shape : Option (List Int)) (entries : List (List Char × Node))
  | other

/-- `_get_instance_shape`, `util.py` 591-613 -/
def Node.shape : Node → Option (List Int)
  | .number => some [1]
  | .mapping s _ => s
  | .other => none

/-- `key in dict_test` and `dict_test[key]` -/
def Node.get : Node → List Char → Except VErr (Option Node)
  | .number, _ => .error .typeError
  | .mapping _ es, k => .ok (Dict.get? es k)
  | .other, _ => .ok none

mutual
/-- the value of `wx_shape` -/
inductive Exp
  | shape (l : List Item)
  | inline (s : List Char)
  | dict (es : Exps)
  | other
/-- the items of a dictionary -/
inductive Exps
  | nil
  | cons (key : List Char) (e : Exp) (es : Exps)
end

/-- `_validate_instance_shape`, `validators.py` 381-424 -/
def validateInstance (n : Node) (exp : List Item) (optional : Bool) :
    Except VErr (Option (List (Item × Int))) :=
  match n.shape with
  | none => if optional then .ok (some []) else .error .validationError
  | some s => (validateShape s exp).map some

/-- `validators.py` 504-508: `none` stands for `return False` -/
def mergeVars : List (Item × Int) → List (Item × Int) → Option (List (Item × Int))
  | d, [] => some d
  | d, (k, v) :: xs => match Dict.get? d k with
    | none => mergeVars (Dict.set d k v) xs
    | some w => if w ≠ v then none else mergeVars d xs

/-- optional keys, `validators.py` 486-492 -/
def parseKey (k : List Char) : Except VErr (List Char × Bool) :=
  if k.head? = some '(' ∧ k.getLast? = some ')' then
    let k := (k.drop 1).dropLast
    if k = [] then .error .syntaxError else .ok (k, true)
  else .ok (k, false)

mutual
/-- `_custom_shape_validator`, `validators.py` 427-518 -/
def validate (n : Node) (optional : Bool) : Exp → Except VErr (Option (List (Item × Int)))
  | .inline s =>
    if ['(', '['] <+: s ∧ [']', ')'] <:+ s then
      validateInstance n ((split ',' ((s.drop 2).dropLast.dropLast)).map .str) true
    else .error .syntaxError
  | .shape l => validateInstance n l optional
  | .dict es => validateAll n [] es
  | .other => .error .syntaxError
/-- the loop over the items of a dictionary, `validators.py` 484-508 -/
def validateAll (n : Node) (d : List (Item × Int)) : Exps → Except VErr (Option (List (Item × Int)))
  | .nil => .ok (some d)
  | .cons key e es =>
    match parseKey key with
    | .error x => .error x
    | .ok (k, opt) => match n.get k with
      | .error x => .error x
      | .ok none => .ok (some d)
      | .ok (some c) => match validate c opt e with
        | .error x => .error x
        | .ok none => .error .typeError
        | .ok (some d') => match mergeVars d d' with
          | none => .ok none
          | some d => validateAll n d es
end

/-- outcome of the validation of a node -/
inductive Outcome
  | accepted | rejected
  | crashed (e : VErr)
  deriving DecidableEq, Repr

/-- `WxShapeValidator.validate`, `validators.py` 548-560 -/
def wxShape (exp : Exp) (n : Node) : Outcome :=
  match validate n false exp with
  | .ok (some _) => .accepted
  | .ok none => .rejected
  | .error .validationError => .rejected
  | .error e => .crashed e

end Weldx.Val
