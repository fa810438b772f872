import Verif.Base.Dict

/-!
# Overview of a schema as a dictionary (C88)

Source: `/repo/weldx/asdf/util.py` 719-820 (`get_schema_tree`), with `remap` of `boltons.iterutils`.

Simplifications: the schema file is given as tree; keys are texts, values that are neither list nor dictionary are their text. No part
of the tree occurs twice as the same object. `remap` visits the items of all lists and dictionaries, inner ones first; the key of an item
of a list, which has no influence, is the empty text. The class of a tag (`get_converter_for_tag`, `default_class_display_name`) is a
parameter.
-/

namespace Weldx.SchemaTree

/-- texts -/
abbrev Str := List Char

/-- nested data -/
inductive Y
  | leaf (s : Str)
  | list (l : List Y)
  | dict (d : List (Str × Y))

/-- exceptions -/
inductive Err
  | keyError | typeError | attributeError | indexError
  deriving DecidableEq, Repr

/-- a function `visit`; `none` is the result `False` -/
abbrev Visit := Str → Y → Except Err (Option (Str × Y))

mutual
/-- `remap(root, visit)` -/
def remap (f : Visit) : Y → Except Err Y
  | .leaf s => .ok (.leaf s)
  | .list l => match remapList f l with
    | .ok l' => .ok (.list l')
    | .error e => .error e
  | .dict d => match remapItems f d with
    | .ok d' => .ok (.dict (Dict.update [] d'))
    | .error e => .error e
/-- the items of a list -/
def remapList (f : Visit) : List Y → Except Err (List Y)
  | [] => .ok []
  | y :: l => match remap f y with
    | .error e => .error e
    | .ok y' => match f [] y' with
      | .error e => .error e
      | .ok r => match remapList f l with
        | .error e => .error e
        | .ok l' => .ok ((r.map Prod.snd).toList ++ l')
/-- the items of a dictionary -/
def remapItems (f : Visit) : List (Str × Y) → Except Err (List (Str × Y))
  | [] => .ok []
  | (k, y) :: d => match remap f y with
    | .error e => .error e
    | .ok y' => match f k y' with
      | .error e => .error e
      | .ok r => match remapItems f d with
        | .error e => .error e
        | .ok d' => .ok (r.toList ++ d')
end

/-- what the function needs to know about tags and values: class name for a tag, `str` of nested data -/
structure Env where
  className : Str → Option Str
  show' : Y → Str

/-- `str(n)` -/
def Env.text (E : Env) : Y → Str
  | .leaf s => s
  | y => E.show' y

/-- `",".join(l)` -/
def joinComma : List Str → Str
  | [] => []
  | [s] => s
  | s :: l => s ++ ',' :: joinComma l

/-- `convert_wx_shape`, 775-781 -/
def convertShape (E : Env) : Visit := fun k y => match y with
  | .dict d => match Dict.get? d "wx_shape".toList with
    | some (.list l) => .ok (some (k, .dict (Dict.set d "wx_shape".toList (.leaf ('[' :: joinComma (l.map E.text) ++ [']'])))))
    | _ => .ok (some (k, y))
  | _ => .ok (some (k, y))

/-- `s.split(sep)[-1]` -/
def afterLast (sep s : Str) : Str := (((s.tails.filter fun t => sep.isPrefixOf t).getLast?).map fun t => t.drop sep.length).getD s

/-- `f"{key} ({text})"` -/
def paren (k text : Str) : Str := k ++ " (".toList ++ text ++ [')']

/-- the name of a type of JSON, 764-772 -/
def typeName (t : Str) : Option Str :=
  if t = "object".toList then some "dict".toList
  else if t = "array".toList then some "list".toList
  else if t = "string".toList then some "str".toList
  else if t = "number".toList then some "number".toList
  else none

/-- `resolve_python_classes`, 745-773 -/
def resolveClasses (E : Env) : Visit := fun k y => match y with
  | .dict d => match Dict.get? d "tag".toList with
    | some (.leaf t) =>
      .ok (some (paren k ((E.className t).getD (afterLast "asdf://weldx.bam.de/weldx/tags/".toList t)), y))
    | some _ => .error .typeError
    | none => match Dict.get? d "$ref".toList with
      | some (.leaf r) => .ok (some (paren k ('$' :: afterLast "asdf://weldx.bam.de/weldx/schemas/".toList r), y))
      | some _ => .error .attributeError
      | none => match Dict.get? d "type".toList with
        | some (.leaf t) => match typeName t with
          | some n => .ok (some (paren k n, y))
          | none => .ok (some (k, y))
        | _ => .ok (some (k, y))
  | _ => .ok (some (k, y))

/-- the names in `value["required"]`; simplification: everything but a list of texts is a `TypeError` -/
def reqNames : List Y → Except Err (List Str)
  | [] => .ok []
  | .leaf s :: l => match reqNames l with
    | .ok r => .ok (s :: r)
    | .error e => .error e
  | _ :: _ => .error .typeError

/-- `k[:-1] + ", required" + ")" if any(k.startswith(r) for r in reqs) else k` -/
def markKey (reqs : List Str) (k : Str) : Str :=
  if reqs.any fun r => r.isPrefixOf k then k.dropLast ++ ", required)".toList else k

/-- `mark_required`, 783-800 -/
def markRequired : Visit := fun k y => match y with
  | .dict d => match Dict.get? d "required".toList with
    | none => .ok (some (k, y))
    | some (.list l) => match reqNames l with
      | .error e => .error e
      | .ok reqs => match Dict.get? d "properties".toList with
        | none => .error .keyError
        | some (.dict p) =>
          .ok (some (k, .dict (Dict.set d "properties".toList (.dict (Dict.update [] (p.map fun e => (markKey reqs e.1, e.2)))))))
        | some _ => .error .attributeError
    | some _ => .error .typeError
  | _ => .ok (some (k, y))

/-- 804 -/
def metaKeys : List Str := ["examples".toList, "description".toList, "tag".toList, "$ref".toList, "type".toList]

/-- `drop_meta`, 802-805 -/
def dropMeta (drop : List Str) : Visit := fun k y => .ok (if k ∈ metaKeys ++ drop then none else some (k, y))

/-- `drop_properties`, 807-813 -/
def dropProperties : Visit := fun k y => match y with
  | .dict d => match Dict.get? d "properties".toList with
    | some p => .ok (some (k, p))
    | none => .ok (some (k, y))
  | _ => .ok (some (k, y))

/-- 743, 815-821; `header` is the content of the schema file -/
def schemaTree (E : Env) (drop : List Str) (header : Y) : Except Err Y := do
  let y ← remap (convertShape E) (.list [header])
  let y ← remap (resolveClasses E) y
  let y ← remap markRequired y
  let y ← remap (dropMeta drop) y
  let y ← remap dropProperties y
  match y with
  | .list (x :: _) => .ok x
  | _ => .error .indexError

end Weldx.SchemaTree
