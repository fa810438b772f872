import Verif.Csm.Lemmas
import Verif.Time.Model

/-!
# Interpolation of a whole manager (C70)

Source: `/repo/weldx/transformations/cs_manager.py` 1310-1378 (`interp_time`), `/repo/weldx/transformations/local_cs.py` 867-882
(`reset_reference_time`).

`interp_time` calls `reset_reference_time` of the stored coordinate systems, which changes these objects. So systems are objects
here: edges refer to their location in a heap. `networkx` and `deepcopy` are described by what they do with these references.
Simplification: node data and subsystem records are values; `time` and `time_ref` are those of the function `interp`.
-/

set_option linter.unusedSectionVars false

namespace Weldx

/-- `LcsLike` with `reset_reference_time`; a second call with the same time has no effect (C21) -/
class LcsTime (S : Type) extends LcsLike S where
  reset : Int → S → S
  reset_reset : ∀ r s, reset r (reset r s) = reset r s

namespace Csm
variable {N S D : Type} [DecidableEq N] [LcsTime S]

/-- the coordinate systems as objects; locations from `next` on are unused -/
structure LHeap (S : Type) where
  obj : Nat → S
  next : Nat

/-- change an object -/
def LHeap.put (h : LHeap S) (l : Nat) (s : S) : LHeap S := { h with obj := fun x => if x = l then s else h.obj x }

/-- create an object -/
def LHeap.alloc (h : LHeap S) (s : S) : LHeap S := ⟨fun x => if x = h.next then s else h.obj x, h.next + 1⟩

/-- a manager whose edges refer to objects, seen through the heap -/
def LHeap.view (h : LHeap S) (m : Csm N Nat D) : Csm N S D :=
  { name := m.name, root := m.root, refTime := m.refTime, nodes := m.nodes,
    edges := m.edges.map fun e => (e.1, ⟨e.2.defined, e.2.transformation.map h.obj⟩), subs := m.subs }

/-- replace the transformation of an edge -/
def setEdge (m : Csm N Nat D) (k : N × N) (d : Bool) (l : Nat) : Csm N Nat D :=
  { m with edges := Dict.set m.edges k ⟨d, some l⟩ }

/-- exceptions: of the manager, of the interpolation, and the access of an attribute of `None` -/
inductive InterpErr
  | csm (e : CsmError)
  | time (e : TimeError)
  | attribute
  deriving DecidableEq

/-- `cs_manager.py` 1350-1354: the two edges of every listed system; the parent of the root is `None` -/
def listedEdges {S : Type} (m : Csm N S D) : List N → Except CsmError (List (Option N × Option N))
  | [] => .ok []
  | c :: t => do
    let p ← m.getParent c
    let r ← m.listedEdges t
    .ok ((some c, p) :: (p, some c) :: r)

/-- 1346-1356 `affected_edges` -/
def affectedEdges {S : Type} (m : Csm N S D) : Option (List N) → Except CsmError (List (Option N × Option N))
  | some cs => m.listedEdges cs
  | none => .ok (m.edges.map fun e => (some e.1.1, some e.1.2))

/-- `self._graph.edges[edge]` -/
def edgeAt (m : Csm N Nat D) : Option N × Option N → Option ((N × N) × Edge Nat)
  | (some a, some b) => (m.edge? a b).map fun e => ((a, b), e)
  | _ => none

/-- state of a call -/
abbrev LCmd (N S D α : Type) := Py InterpErr (LHeap S × Csm N Nat D) α

/-- 1361-1364: the manager's reference time is given to a system without reference time -/
def resetIn (r : Option Int) (s : S) : S := match LcsLike.refTime s, r with
  | none, some r => LcsTime.reset r s
  | _, _ => s

/-- 1358-1367, one step. `interp` is `interp_time` of the system, `none` if it returns the system itself. -/
def interpEdge (interp : S → Except TimeError (Option S)) (k : Option N × Option N) : LCmd N S D Unit := fun (h, m) =>
  match m.edgeAt k with
  | none => .err (.csm .keyError) (h, m)
  | some (ab, e) =>
    if e.defined then match e.transformation with
      | none => .err .attribute (h, m)
      | some l =>
        let h := h.put l (resetIn m.refTime (h.obj l))
        match interp (h.obj l) with
        | .error x => .err (.time x) (h, m)
        | .ok none => .ok () (h, m.setEdge ab true l)
        | .ok (some s) => .ok () (h.alloc s, m.setEdge ab true h.next)
    else .ok () (h, m)

/-- 1369-1373, one step; `invert` raises for expressions -/
def invertEdge (k : Option N × Option N) : LCmd N S D Unit := fun (h, m) =>
  match m.edgeAt k with
  | none => .err (.csm .keyError) (h, m)
  | some (ab, e) =>
    if e.defined then .ok () (h, m)
    else match m.edge? ab.2 ab.1 with
      | none => .err (.csm .keyError) (h, m)
      | some e' => match e'.transformation with
        | none => .err .attribute (h, m)
        | some l =>
          if LcsLike.isSeries (h.obj l) then .err (.csm .weldxException) (h, m)
          else .ok () (h.alloc (LcsLike.invert (h.obj l)), m.setEdge ab false h.next)

/-- a `for` loop -/
def forEdges (f : Option N × Option N → LCmd N S D Unit) : List (Option N × Option N) → LCmd N S D Unit
  | [] => pure ()
  | k :: t => do
    f k
    forEdges f t

/-- `interp_time(…, in_place=True)`, 1345-1374 -/
def interpTime (interp : S → Except TimeError (Option S)) (affected : Option (List N)) : LCmd N S D Unit := fun (h, m) =>
  match (h.view m).affectedEdges affected with
  | .error e => .err (.csm e) (h, m)
  | .ok ks => (do
    forEdges (interpEdge interp) ks
    forEdges invertEdge ks) (h, m)

/-- `deepcopy`: every object is copied, the copies refer to each other like the originals -/
def deepCopy (h : LHeap S) (m : Csm N Nat D) : LHeap S × Csm N Nat D :=
  (⟨fun l => if l < h.next then h.obj l else h.obj (l - h.next), h.next + h.next⟩,
    { m with edges := m.edges.map fun e => (e.1, ⟨e.2.defined, e.2.transformation.map (· + h.next)⟩) })

/-- `interp_time(…, in_place=False)`, 1376-1378: the state has the new manager -/
def interpTimeCopy (interp : S → Except TimeError (Option S)) (affected : Option (List N)) (h : LHeap S) (m : Csm N Nat D) :
    Res InterpErr (LHeap S × Csm N Nat D) Unit := interpTime interp affected (deepCopy h m)

end Csm
end Weldx
