import Verif.TimeLcs.Sum

/-!
# Queries of a `CoordinateSystemManager` with time dependent systems

Source: `/repo/weldx/transformations/cs_manager.py` 253-274 (`_add_edges`), 1024-1062 (`_get_cs_on_edge`), 1206-1246 (`get_cs`);
`/repo/weldx/transformations/local_cs.py` 693-772 for coordinates that are a `TimeSeries` with an expression;
`/repo/weldx/core/time_series.py` 344-389.

Simplifications: the path is given by the list of the transformations stored on its edges (that it exists and is unique is the
subject of `Csm/`); the time is given; an expression is a function of the time since the reference time of its system and has
no reference time of its own.
-/

namespace Weldx

open Ip Matrix

/-! ### model -/

/-- a `LocalCoordinateSystem` whose coordinates are a `TimeSeries` with an expression: the data set has only the orientation -/
structure ELcs where
  times : Option (List Int)
  ref : Option Int
  orient : Comp (Mat3 ℝ)
  expr : Int → Vec3 ℝ

namespace ELcs

/-- the part without the coordinates -/
def frame (e : ELcs) : TLcs := ⟨e.times, e.ref, e.orient, .static 0⟩

/-- `_interp_time_coordinates`, `local_cs.py` 704-713, with `_coords_from_discrete_time_series`, 386-401: the expression is
evaluated at the time since the reference time; a single value is static -/
def interpCoord (e : ELcs) (t : Time) : Comp (Vec3 ℝ) := match t.vals with
  | [x] => .static (e.expr (x - e.ref.getD 0))
  | l => .series (l.map fun x => e.expr (x - e.ref.getD 0))

/-- the orientation in `interp_time`, `local_cs.py` 723-772 and 693-702; the flag tells that the result still has the time
coordinate -/
noncomputable def interpOrient (S : Slerp) (e : ELcs) (t : Time) : Except TimeError (Comp (Mat3 ℝ) × Bool) := do
  match e.orient, ← e.frame.time with
  | .static R, _ => .ok (Comp.static R, false)
  | .series l, some own => do
    .ok (← TLcs.interpComp (interpOrientation S) own.vals t.vals (.series l), !TLcs.outside own.vals t.vals)
  | .series _, none => .error TimeError.typeError

/-- `interp_time`, `local_cs.py` 723-772 -/
noncomputable def interpTime (S : Slerp) (e : ELcs) (t : Time) (timeRef : Option Int) : Except TimeError TLcs := do
  let t ← t.ofTime timeRef
  if e.ref.isSome ≠ t.abs then .error .typeError
  else do
    let (orient, label) ← e.interpOrient S t
    let coord := e.interpCoord t
    if orient.isSeries || coord.isSeries then do
      .ok ⟨some (← t.asTimedelta), ← t.referenceTime, orient, coord⟩
    else if label then .ok ⟨some (t.vals.map (· - e.ref.getD 0)), e.ref, orient, coord⟩
    else .ok ⟨none, none, orient, coord⟩

end ELcs

/-- the transformation on an edge: discrete systems are stored in both directions (the inverse for the direction that is not
defined), systems with an expression only in the defined one; the flag tells that the edge is used in the other direction -/
inductive TEdge
  | discrete (c : TLcs)
  | expression (e : ELcs) (inverse : Bool)

namespace TEdge

/-- `_add_edges`, `cs_manager.py` 253-274: the transformation of the reverse edge -/
noncomputable def reverse : TEdge → TEdge
  | discrete c => discrete c.invert
  | expression e i => expression e !i

/-- `reference_time` -/
def ref : TEdge → Option Int
  | discrete c => c.ref
  | expression e _ => e.ref

/-- `is_time_dependent` -/
def dependent : TEdge → Bool
  | discrete c => c.dependent
  | expression _ _ => true

/-- `interp_time` of the stored system -/
noncomputable def interp (S : Slerp) (t : Time) (tref : Option Int) : TEdge → Except TimeError TLcs
  | discrete c => c.interpTime S (some t) tref
  | expression e _ => e.interpTime S t tref

/-- `cs_manager.py` 1043-1045: a new system with the same data and the given times -/
def rebuild (c : TLcs) (t : Time) : Except TimeError TLcs :=
  if c.dependent then do .ok ⟨some (← t.asTimedelta), ← t.referenceTime, c.orient, c.coord⟩
  else .ok ⟨none, none, c.orient, c.coord⟩

/-- the last step of `_get_cs_on_edge`, `cs_manager.py` 1051-1061 -/
noncomputable def turn (c : TLcs) : TEdge → TLcs
  | expression _ true => c.invert
  | _ => c

/-- `_get_cs_on_edge`, `cs_manager.py` 1024-1062; `own` is `use_lcs_time_ref` -/
noncomputable def onEdge (S : Slerp) (csmRef : Option Int) (t : Time) (tref : Option Int) (own : Bool) (e : TEdge) :
    Except TimeError TLcs :=
  match e with
  | discrete c => if c.dependent then interpolated else .ok c
  | expression _ _ => interpolated
where
  interpolated : Except TimeError TLcs := match e.ref, csmRef with
    | none, some r => do
      let d ← t.sub ⟨true, [r], none⟩
      let c ← e.interp S d none
      .ok (turn (← rebuild c t) e)
    | _, _ => do .ok (turn (← e.interp S t (if own then e.ref else tref)) e)

end TEdge

/-- the rest of the path in `get_cs`, `cs_manager.py` 1244-1246 -/
noncomputable def addEdges (S : Slerp) (csmRef : Option Int) (t : Time) (tref : Option Int) :
    List TEdge → TLcs → Except TimeError TLcs
  | [], acc => .ok acc
  | e :: es, acc => do
    let c ← e.onEdge S csmRef t tref false
    addEdges S csmRef t tref es (← acc.add S c)

/-- `get_cs`, `cs_manager.py` 1206-1246, for a given time -/
noncomputable def getCs (S : Slerp) (csmRef : Option Int) (edges : List TEdge) (time : Time) (timeRef : Option Int) :
    Except TimeError TLcs := do
  let tref := timeRef.or csmRef
  let t ← time.ofTime tref
  match edges with
  | [] => .ok ⟨none, none, .static 1, .static 0⟩
  | [e] => e.onEdge S csmRef t tref tref.isNone
  | e :: es => do
    let c ← e.onEdge S csmRef t tref false
    addEdges S csmRef t tref es c

/-! ### specification -/

namespace TEdge

/-- the value of the system on an edge at a time of its own clock -/
def At (S : Slerp) : TEdge → Int → Lcs ℝ → Prop
  | discrete c, t, f => c.At S t f
  | expression e i, t, f => ∃ g : Lcs ℝ, CompAt S e.frame.clock e.orient t g.orientation ∧
      g.coordinates = e.expr (t - e.ref.getD 0) ∧ f = if i then g.invert else g

/-- the value at a point in time of the manager: times of systems without reference time count from the one of the manager -/
def AtCsm (S : Slerp) (csmRef : Option Int) (e : TEdge) (t : Int) (f : Lcs ℝ) : Prop := match e.ref, csmRef with
  | none, some r => e.At S (t - r) f
  | _, _ => e.At S t f

/-- data sets that the constructor creates; static systems have no time left from an earlier interpolation -/
def WF : TEdge → Prop
  | discrete c => c.WF ∧ (c.dependent = false → c.times = none)
  | expression e _ => (e.orient.isSeries = true → e.frame.WF) ∧ (e.orient.isSeries = false → e.times = none) ∧
      TLcs.CompAll Rotation e.orient

end TEdge

/-- the position in the last system of a point given in the first -/
def along (fs : List (Lcs ℝ)) (p : Vec3 ℝ) : Vec3 ℝ := fs.foldl (fun p f => f.toParent p) p

end Weldx
