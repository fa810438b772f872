import Verif.Base.Dict
import Mathlib.Data.Int.Notation

/-!
# The time coordinate of arrays and its reference time: model (C82)

Source: `/repo/weldx/util/xarray.py` 790-797 (`time_ref_unset`), 799-812 (`time_ref_restore`), 814-819 (`reset_reference_time`),
821-828 (`time_ref`), 830-849 (its setter).

Simplifications.
* Times are integers (nanoseconds); there are no time zones and no missing values (`NaT`). The time coordinate has one dimension.
* Attribute dictionaries are objects with an identity (positions of `Heap.dicts`), because the code assigns the dictionary of one array to
  another and changes dictionaries in place. The rules of xarray: `copy` copies the dictionary, `da["time"] = x` makes a coordinate with
  an empty dictionary, `v.attrs = d` stores a copy of `d`, `v.attrs[k] = x` changes the dictionary of `v` in place.
* Everything in an array except the time coordinate is its `body`, which no function looks at.
* `Time(value).as_timestamp()`: the argument is `None`, something that is a single time stamp, or something else (`TypeError`).
-/

namespace Weldx.TimeRef

/-- type of the values of a time coordinate: `timedelta64`, `datetime64`, or numbers -/
inductive Kind | delta | stamp | num
  deriving DecidableEq

/-- value of an attribute: a time stamp, `None`, or anything else -/
inductive Attr (X : Type) | time (t : ℤ) | null | other (x : X)
  deriving DecidableEq

/-- an attribute dictionary -/
abbrev Attrs (X : Type) := List (String × Attr X)

/-- the attribute dictionaries -/
structure Heap (X : Type) where
  dicts : List (Attrs X)

/-- a time coordinate; `attrs`: identity of its attribute dictionary -/
structure Coord where
  kind : Kind
  vals : List ℤ
  attrs : ℕ
  deriving DecidableEq

/-- a `DataArray` or `Dataset` -/
structure Arr (B : Type) where
  time : Option Coord
  body : B

/-- exceptions -/
inductive Err | typeError | indexError
  deriving DecidableEq

variable {B X : Type}

/-- the content of a dictionary -/
def Heap.get (h : Heap X) (i : ℕ) : Attrs X := (h.dicts[i]?).getD []

/-- a new dictionary -/
def Heap.new (h : Heap X) (a : Attrs X) : Heap X × ℕ := (⟨h.dicts ++ [a]⟩, h.dicts.length)

/-- `d[k] = v` -/
def Heap.setItem (h : Heap X) (i : ℕ) (k : String) (v : Attr X) : Heap X := ⟨h.dicts.set i (Dict.set (h.get i) k v)⟩

/-- `self._obj.copy()` -/
def copy (h : Heap X) (a : Arr B) : Heap X × Arr B :=
  match a.time with
  | none => (h, a)
  | some c =>
    let (h, i) := h.new (h.get c.attrs)
    (h, { a with time := some { c with attrs := i } })

/-- 822-828: the attribute, `None` if there is none. A stored object that is no time stamp is left out: it counts as no reference. -/
def timeRef (h : Heap X) (a : Arr B) : Option ℤ :=
  match a.time with
  | none => none
  | some c => match Dict.get? (h.get c.attrs) "time_ref" with
    | some (.time t) => some t
    | _ => none

/-- `da["time"] = values; da.time.attrs = attrs`, 795-796, 809-810 and 845-846 -/
def assign (h : Heap X) (a : Arr B) (k : Kind) (vals : List ℤ) (attrs : ℕ) : Heap X × Arr B × ℕ :=
  let (h, i) := h.new (h.get attrs)
  (h, { a with time := some ⟨k, vals, i⟩ }, i)

/-- 790-797 `time_ref_unset` -/
def unset (h : Heap X) (a : Arr B) : Heap X × Arr B :=
  let (h, da) := copy h a
  match timeRef h da, da.time, a.time with
  | some r, some c, some o =>
    if c.kind = .delta then
      let (h, da, _) := assign h da .stamp (c.vals.map (· + r)) o.attrs
      (h, da)
    else (h, da)
  | _, _, _ => (h, da)

/-- 799-812 `time_ref_restore` -/
def restore (h : Heap X) (a : Arr B) : Except Err (Heap X × Arr B) :=
  let (h, da) := copy h a
  match da.time, a.time with
  | some c, some o =>
    if c.kind = .stamp then
      match (timeRef h da).or c.vals.head? with
      | none => .error .indexError
      | some r =>
        let (h, da, i) := assign h da .delta (c.vals.map (· - r)) o.attrs
        .ok (h.setItem i "time_ref" (.time r), da)
    else .ok (h, da)
  | _, _ => .ok (h, da)

/-- a new reference time as it is passed -/
inductive Arg | none | stamp (t : ℤ) | other

/-- 830-849: the setter of `time_ref`; the array is changed in place -/
def setRef (h : Heap X) (a : Arr B) (v : Arg) : Except Err (Heap X × Arr B) :=
  match v, a.time with
  | .none, _ => .error .typeError
  | _, none => .ok (h, a)
  | .other, some _ => .error .typeError
  | .stamp t, some c =>
    match timeRef h a with
    | some r =>
      if c.kind = .delta then
        if t = r then .ok (h, a)
        else
          let (h, a, i) := assign h a .delta (c.vals.map (· - (t - r))) c.attrs
          .ok (h.setItem i "time_ref" (.time t), a)
      else .ok (h.setItem c.attrs "time_ref" (.time t), a)
    | none => .ok (h.setItem c.attrs "time_ref" (.time t), a)

/-- 814-819 `reset_reference_time` -/
def reset (h : Heap X) (a : Arr B) (v : Arg) : Except Err (Heap X × Arr B) :=
  let (h, da) := copy h a
  match restore h da with
  | .error e => .error e
  | .ok (h, da) => setRef h da v

end Weldx.TimeRef
