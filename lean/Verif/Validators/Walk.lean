import Verif.Base.Dict

/-!
# Unit and tag validation (C65)

Source: `/repo/weldx/asdf/validators.py` 21-74 (`_walk_validator`), 77-112 (`_unit_validator`), 523-538 (`WxUnitValidator`), 562-592
(`WxPropertyTagValidator`); `/repo/weldx/asdf/util.py` 519-529 (`uri_match`), 616-640 (`_get_instance_units`);
`/repo/weldx/tags/core/data_array.py` 54-56 (`units_from_tagged`).

Simplifications: a tree has the node types of a YAML document. Units are represented by their dimension; parsing of unit strings is a
parameter (`none`: pint raises). The generator of a validator is the list of errors that it yields and the exception that ends it, if any;
the caller raises the first of these. `asdf.util.uri_match` is not part of /repo: `*` matches characters other than `/`, `**` matches
all. `converter.units_from_tagged` exists only for data arrays. Tags of Python builtins (`_type_to_tag`) are the YAML tags.
-/

namespace Weldx.Walk

/-- a node of a YAML tree with its tag -/
inductive Node
  | null
  | bool
  | num
  | str (tag : Option String) (s : String)
  | list (tag : Option String) (l : List Node)
  | map (tag : Option String) (m : List (String × Node))

/-- the value of `wx_unit` -/
inductive Sch
  | leaf (s : String)
  | dict (l : List (String × Sch))

/-- exceptions -/
inductive Crash | keyError | typeError | unitError | attributeError | syntaxError
  deriving DecidableEq

/-- messages of the unit validator -/
inductive Msg | noUnit | wrongUnit | wrongTag
  deriving DecidableEq

/-- what a generator does -/
structure Res where
  errs : List Msg
  crash : Option Crash

/-- nothing to report -/
def Res.ok : Res := ⟨[], none⟩

/-- `yield from a; yield from b` -/
def Res.seq (a b : Res) : Res :=
  match a.crash with
  | some c => ⟨a.errs, some c⟩
  | none => ⟨a.errs ++ b.errs, b.crash⟩

/-- what the user sees -/
inductive Outcome | valid | invalid | crashed (c : Crash)
  deriving DecidableEq

/-- the first event counts -/
def Res.outcome (r : Res) : Outcome :=
  match r.errs, r.crash with
  | _ :: _, _ => .invalid
  | [], some c => .crashed c
  | [], none => .valid

/-- dimensions of units, parsing (`U_`), `str`, and kinds of tags -/
structure Units (D : Type) where
  parse : String → Option D
  dless : D
  text : Node → String
  isNdarray : String → Bool
  isDataArray : String → Bool

variable {D : Type} [DecidableEq D]

mutual
/-- util.py 616-640 -/
def units (u : Units D) : Node → Except Crash (Option D)
  | .num => .ok (some u.dless)
  | .bool => .ok (some u.dless)
  | .null => .ok none
  | .str (some t) _ => if u.isNdarray t then .ok (some u.dless) else if u.isDataArray t then .error .typeError else .ok none
  | .str none _ => .ok none
  | .list (some t) _ => if u.isNdarray t then .ok (some u.dless) else if u.isDataArray t then .error .typeError else .ok none
  | .list none _ => .ok none
  | .map t m =>
    match Dict.get? m "units" with
    | some n => match u.parse (u.text n) with
      | some d => .ok (some d)
      | none => .error .unitError
    | none => match t with
      | none => .ok none
      | some t => if u.isNdarray t then .ok (some u.dless) else if u.isDataArray t then unitsData u m else .ok none
/-- data_array.py 54-56: the units of `node["data"]` -/
def unitsData (u : Units D) : List (String × Node) → Except Crash (Option D)
  | [] => .error .keyError
  | (k, n) :: m => if k = "data" then units u n else unitsData u m
end

/-- 77-112 -/
def unitValidator (u : Units D) (n : Node) (s : String) : Res :=
  match units u n with
  | .error c => ⟨[], some c⟩
  | .ok none => ⟨[.noUnit], none⟩
  | .ok (some d) => match u.parse s with
    | none => ⟨[], some .unitError⟩
    | some e => if d = e then .ok else ⟨[.wrongUnit], none⟩

/-- `instance[key]` -/
def item (n : Node) (k : String) : Except Crash Node :=
  match n with
  | .map _ m => match Dict.get? m k with
    | some c => .ok c
    | none => .error .keyError
  | _ => .error .typeError

/-- `key in instance` followed by `instance[key]`; `substring`: a key that is contained in the string `instance` -/
def itemIn (substring : String → String → Bool) (n : Node) (k : String) : Except Crash (Option Node) :=
  match n with
  | .map _ m => .ok (Dict.get? m k)
  | .list _ l => if l.any (fun c => match c with | .str _ s => decide (s = k) | _ => false) then .error .typeError else .ok none
  | .str _ s => if substring k s then .error .typeError else .ok none
  | _ => .error .typeError

mutual
/-- 21-74 with `_unit_validator` -/
def walk (f : Node → String → Res) (sub : String → String → Bool) (n : Node) : Sch → Res
  | .leaf s => f n s
  | .dict l => walkItems f sub n l
/-- the loop 56-71 -/
def walkItems (f : Node → String → Res) (sub : String → String → Bool) (n : Node) : List (String × Sch) → Res
  | [] => .ok
  | (k, .dict d) :: l =>
    Res.seq (match item n k with
      | .error c => ⟨[], some c⟩
      | .ok c => walk f sub c (.dict d)) (walkItems f sub n l)
  | (k, .leaf s) :: l =>
    Res.seq (match itemIn sub n k with
      | .error c => ⟨[], some c⟩
      | .ok none => .ok
      | .ok (some c) => f c s) (walkItems f sub n l)
end

/-- 523-538 `WxUnitValidator.validate` -/
def wxUnit (u : Units D) (sub : String → String → Bool) (n : Node) (s : Sch) : Outcome := (walk (unitValidator u) sub n s).outcome

/-! ### Tags -/

/-- `asdf.util.uri_match` -/
def glob : List Char → List Char → Bool
  | [], [] => true
  | [], _ :: _ => false
  | '*' :: '*' :: p, [] => glob p []
  | '*' :: '*' :: p, c :: t => glob p (c :: t) || glob ('*' :: '*' :: p) t
  | '*' :: p, [] => glob p []
  | '*' :: p, c :: t => glob p (c :: t) || (decide (c ≠ '/') && glob ('*' :: p) t)
  | _ :: _, [] => false
  | a :: p, c :: t => decide (a = c) && glob p t
termination_by p t => p.length + t.length

/-- the argument `wx_property_tag` -/
inductive TagArg | one (p : String) | many (l : List String) | other

/-- util.py 519-529 -/
def uriMatch : TagArg → String → Bool
  | .one p, t => glob p.toList t.toList
  | .many l, t => l.any fun p => glob p.toList t.toList
  | .other, _ => false

/-- 572-577: the tag of a node or of a Python builtin -/
def tagOf : Node → String
  | .null => "tag:yaml.org,2002:null"
  | .bool => "tag:yaml.org,2002:bool"
  | .num => "tag:yaml.org,2002:float"
  | .str t _ => t.getD "tag:yaml.org,2002:str"
  | .list t _ => t.getD "tag:yaml.org,2002:seq"
  | .map t _ => t.getD "tag:yaml.org,2002:map"

/-- 562-592 `WxPropertyTagValidator.validate` -/
def propertyTag (p : TagArg) (n : Node) : Res :=
  match p with
  | .other => ⟨[], some .syntaxError⟩
  | p => match n with
    | .map _ m => ⟨(m.filter fun e => !uriMatch p (tagOf e.2)).map fun _ => .wrongTag, none⟩
    | _ => ⟨[], some .attributeError⟩

end Weldx.Walk
