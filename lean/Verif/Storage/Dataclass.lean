import Verif.Base.Dict
import Mathlib.Data.String.Basic

/-!
# Generated converters of dataclasses: model (C85)

Source: `/repo/weldx/asdf/util.py` 427-500 (`dataclass_serialization_class`), `/repo/weldx/asdf/types.py` 26-66 (metadata and removal of
`None`), `/repo/weldx/tags/equipment/measurement_equipment.py` 7-10, `/repo/weldx/measurement.py` 132-152 (`MeasurementEquipment`),
`/repo/weldx/tags/aws/process/arc_welding_process.py` 7-63, `/repo/weldx/tags/processes/process.py` 20-26 and
`/repo/weldx/tags/core/graph.py` 25-35 (`__dict__` without sorting).

Simplifications.
* The attribute dictionary of an object is an object of its own, because `to_yaml_tree` hands out `obj.__dict__` and changes it in place.
  Lists are objects with an identity as well. The items of a list are strings, `None` or other values (`leaf`); nested containers are
  leaves, the removal of `None` inside of them is the subject of C40.
* The loop 38-41 of `types.py` assigns attributes of the object to its own dictionary; this has no effect and is left out.
* `to_yaml_tree_mod` is not used by any converter in the repository and left out.
* The order of strings is that of their code points, in Python and in Lean.
* A dataclass is given by its fields with defaults and by `__post_init__`, which is a function of the values.
-/

namespace Weldx.Dc

variable {L : Type}

/-- item of a list -/
inductive Item (L : Type) | null | str (s : String) | leaf (l : L)
  deriving DecidableEq

/-- value of an attribute: `None`, a string, another value, or a list object -/
inductive Val (L : Type) | null | str (s : String) | leaf (l : L) | list (r : ℕ)
  deriving DecidableEq

/-- a value that is written: lists are given by their items -/
inductive TVal (L : Type) | null | str (s : String) | leaf (l : L) | list (l : List (Item L))
  deriving DecidableEq

/-- list objects and attribute dictionaries -/
structure Heap (L : Type) where
  lists : List (List (Item L))
  objs : List (List (String × Val L))

/-- the items of a list object -/
def Heap.items (h : Heap L) (r : ℕ) : List (Item L) := (h.lists[r]?).getD []

/-- `obj.__dict__` -/
def Heap.attrs (h : Heap L) (o : ℕ) : List (String × Val L) := (h.objs[o]?).getD []

/-- the strings of a list, if all items are strings -/
def strings : List (Item L) → Option (List String)
  | [] => some []
  | .str s :: t => (strings t).map (s :: ·)
  | _ :: _ => none

/-- `util.py` 475-476 for one value: a list of strings is replaced by a new list -/
def sortVal (h : Heap L) : Val L → Heap L × Val L
  | .list r => match strings (h.items r) with
    | some l => ({ h with lists := h.lists ++ [(l.mergeSort fun a b => decide (a ≤ b)).map .str] }, .list h.lists.length)
    | none => (h, .list r)
  | v => (h, v)

/-- the loop 474-476 -/
def sortAttrs : Heap L → List (String × Val L) → Heap L × List (String × Val L)
  | h, [] => (h, [])
  | h, (k, v) :: t =>
    let (h, v) := sortVal h v
    let (h, t) := sortAttrs h t
    (h, (k, v) :: t)

/-- what a value looks like -/
def Heap.value (h : Heap L) : Val L → TVal L
  | .null => .null
  | .str s => .str s
  | .leaf l => .leaf l
  | .list r => .list (h.items r)

/-- the attributes of an object -/
def Heap.look (h : Heap L) (o : ℕ) : List (String × TVal L) := (h.attrs o).map fun e => (e.1, h.value e.2)

/-- `v is not None` -/
def TVal.some? : TVal L → Bool
  | .null => false
  | _ => true
/-- `v is not None` -/
def Item.some? : Item L → Bool
  | .null => false
  | _ => true

/-- removal of `None` in a value, `types.py` 44-45 -/
def TVal.strip : TVal L → TVal L
  | .list l => .list (l.filter Item.some?)
  | v => v

/-- removal of `None` in a tree -/
def stripTree (t : List (String × TVal L)) : List (String × TVal L) := (t.filter fun e => e.2.some?).map fun e => (e.1, e.2.strip)

/-- exceptions -/
inductive Err | typeError | valueError
  deriving DecidableEq

/-- a dataclass with its converter. `sort`: the argument `sort_string_lists`. `fields`: names and defaults. `mod`: `from_yaml_tree_mod`. -/
structure Cls (L : Type) where
  sort : Bool
  fields : List (String × Option (TVal L))
  mod : List (String × TVal L) → List (String × TVal L)
  post : List (String × TVal L) → Except Err (List (String × TVal L))

/-- `util.py` 488-492 and the wrapper: objects after the call, and the tree -/
def save (c : Cls L) (h : Heap L) (o : ℕ) : Heap L × List (String × TVal L) :=
  let h := if c.sort then
      let (h', a) := sortAttrs h (h.attrs o)
      { h' with objs := h'.objs.set o a }
    else h
  (h, stripTree (h.look o))

/-- `bool(value)` -/
def TVal.truth (truth : L → Bool) : TVal L → Bool
  | .null => false
  | .str s => s ≠ ""
  | .leaf l => truth l
  | .list l => !l.isEmpty

/-- the attributes for metadata, `constants.py` -/
def metaKeys : List String := ["wx_metadata", "wx_user"]

/-- `types.py` 56-61: the metadata that is set later -/
def takeMeta (truth : L → Bool) (t : List (String × TVal L)) : List (String × TVal L) :=
  t.filter fun e => decide (e.1 ∈ metaKeys) && e.2.truth truth

/-- `types.py` 58: what remains -/
def dropMeta (t : List (String × TVal L)) : List (String × TVal L) := t.filter fun e => decide (e.1 ∉ metaKeys)

/-- the values of the fields -/
def fill : List (String × Option (TVal L)) → List (String × TVal L) → Except Err (List (String × TVal L))
  | [], _ => .ok []
  | (k, d) :: fs, t => match (Dict.get? t k).or d with
    | none => .error .typeError
    | some v => match fill fs t with
      | .error e => .error e
      | .ok r => .ok ((k, v) :: r)

/-- `class_type(**t)` -/
def construct (c : Cls L) (t : List (String × TVal L)) : Except Err (List (String × TVal L)) :=
  if ∀ e ∈ t, e.1 ∈ Dict.keys c.fields then
    match fill c.fields t with
    | .error e => .error e
    | .ok a => c.post a
  else .error .typeError

/-- `util.py` 494-498 and the wrapper: the attributes of the new object -/
def load (c : Cls L) (truth : L → Bool) (t : List (String × TVal L)) : Except Err (List (String × TVal L)) :=
  match construct c (c.mod (dropMeta t)) with
  | .error e => .error e
  | .ok a => .ok (Dict.update a (takeMeta truth t))

/-! ### Measurement equipment -/

/-- the names of the items; iterating over something that is no list, or an item without a name raises -/
def itemNames (name : L → Option String) : TVal L → Option (List String)
  | .list l => l.mapM fun x => match x with
    | .leaf y => name y
    | _ => none
  | _ => none

/-- `measurement.py` 140-152 -/
def equipmentPost (name : L → Option String) (a : List (String × TVal L)) : Except Err (List (String × TVal L)) :=
  match itemNames name ((Dict.get? a "sources").getD .null) with
  | none => .error .typeError
  | some s =>
    if ¬ s.Nodup then .error .valueError else
    match itemNames name ((Dict.get? a "transformations").getD .null) with
    | none => .error .typeError
    | some t => if ¬ t.Nodup then .error .valueError else .ok a

/-- `measurement_equipment.py` 7-20 and `measurement.py` 132-152 -/
def equipment (name : L → Option String) : Cls L where
  sort := true
  fields := [("name", none), ("sources", some (.list [])), ("transformations", some (.list []))]
  mod := fun t => if "sources" ∈ Dict.keys t then t else t ++ [("sources", .null)]
  post := equipmentPost name

/-! ### Arc welding processes -/

/-- `arc_welding_process.py` 7-22 -/
def nameToAbbr : List (String × String) :=
  [("atomicHydrogenWelding", "AHW"), ("bareMetalArcWelding", "BMAW"), ("carbonArcWelding", "CAW"), ("carbonArcWeldingGas", "CAW-G"),
   ("carbonArcWeldingShielded", "CAW-S"), ("electrogasWelding", "EGW"), ("electroSlagWelding", "ESW"), ("gasMetalArcWelding", "GMAW"),
   ("gasTungstenArcWelding", "GTAW"), ("plasmaArcWelding", "PAW"), ("shieldedMetalArcWelding", "SMAW"), ("studArcWelding", "SW"),
   ("submergedArcWelding", "SAW"), ("submergedArcWeldingSeries", "SAW-S")]

/-- `arc_welding_process.py` 24-39 -/
def abbrToName : List (String × String) :=
  [("AHW", "atomicHydrogenWelding"), ("BMAW", "bareMetalArcWelding"), ("CAW", "carbonArcWelding"), ("CAW-G", "carbonArcWeldingGas"),
   ("CAW-S", "carbonArcWeldingShielded"), ("EGW", "electrogasWelding"), ("ESW", "electroSlagWelding"), ("GMAW", "gasMetalArcWelding"),
   ("GTAW", "gasTungstenArcWelding"), ("PAW", "plasmaArcWelding"), ("SMAW", "shieldedMetalArcWelding"), ("SW", "studArcWelding"),
   ("SAW", "submergedArcWelding"), ("SAW-S", "submergedArcWeldingSeries")]

/-- `ArcWeldingProcess` -/
structure Process where
  name : String
  abbreviation : String
  deriving DecidableEq

/-- `arc_welding_process.py` 49-59 -/
def Process.init (s : String) : Except Err Process :=
  match Dict.get? nameToAbbr s with
  | some a => .ok ⟨s, a⟩
  | none => match Dict.get? abbrToName s with
    | some n => .ok ⟨n, s⟩
    | none => .error .valueError

/-- `arc_welding_process.py` 62-63: of a stored process only the name is used -/
def Process.read (stored : Process) : Except Err Process := Process.init stored.name

end Weldx.Dc
