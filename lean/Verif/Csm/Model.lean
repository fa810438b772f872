import Verif.Base.Py
import Verif.Base.Dict
import Mathlib.Algebra.Group.Basic

/-!
# Model of the coordinate system manager

Follows `/repo/weldx/transformations/cs_manager.py`, class `CoordinateSystemManager`.

Type parameters: `N` for names (Python `str`), `S` for the coordinate systems stored on the edges
(Python `LocalCoordinateSystem`, static or time dependent), `D` for attached data, `L` for the static
coordinate systems that `get_cs` composes.

The `networkx.DiGraph` is represented by two insertion ordered dictionaries: node name to the node's
`"data"` dictionary and (source, target) to the edge's attributes. `networkx` itself is not part of
`/repo`; the functions `succs`, `removeNode`, `shortestPath` and `compose` below describe the documented
behaviour of the `networkx` functions that the class calls.
-/

namespace Weldx

/-- Exceptions raised by the manager. `noPath` stands for `networkx.NetworkXNoPath`/`NodeNotFound`,
`nxError` for `networkx.NetworkXError`/`NetworkXUnfeasible`, `diverge` for a loop that would not end. -/
inductive CsmError
  | valueError | weldxException | keyError | nameError | notImplemented | indexError
  | noPath | nxError | diverge
  deriving DecidableEq, Repr

/-- What the manager asks a `LocalCoordinateSystem` (`local_cs.py`: `invert` 774-801,
`is_time_dependent`, `has_reference_time`, `reference_time`; `isSeries` is
`isinstance(lcs.coordinates, TimeSeries)`). -/
class LcsLike (S : Type) where
  invert : S → S
  isSeries : S → Bool
  isTimeDependent : S → Bool
  refTime : S → Option Int

/-- Attributes of a graph edge (`cs_manager.py` 266-274): whether the user supplied the system in this
direction, and the stored system. `none` is Python's `None`, stored for the reverse direction of
systems that are described by a `TimeSeries`. -/
structure Edge (S : Type) where
  defined : Bool
  transformation : Option S
  deriving DecidableEq, Repr

/-- `CoordinateSystemManager.SubsystemInfo`, `cs_manager.py` 44-94. Sets are lists. -/
inductive SubInfo (N : Type) where
  | mk (name root common : N) (timeRef : Option Int) (members data : List N)
      (subs : List (SubInfo N))
  deriving Repr

namespace SubInfo
variable {N : Type}
def name : SubInfo N → N | mk a _ _ _ _ _ _ => a
def root : SubInfo N → N | mk _ a _ _ _ _ _ => a
def common : SubInfo N → N | mk _ _ a _ _ _ _ => a
def timeRef : SubInfo N → Option Int | mk _ _ _ a _ _ _ => a
def members : SubInfo N → List N | mk _ _ _ _ a _ _ => a
def data : SubInfo N → List N | mk _ _ _ _ _ a _ => a
def subs : SubInfo N → List (SubInfo N) | mk _ _ _ _ _ _ a => a
/-- `s.data.discard(name)` (`cs_manager.py` 647) -/
def discard [DecidableEq N] (d : N) : SubInfo N → SubInfo N
  | mk a b c t m dt s => mk a b c t m (dt.filter (· ≠ d)) s
end SubInfo

/-- State of a `CoordinateSystemManager` (`cs_manager.py` 128-133). -/
structure Csm (N S D : Type) where
  name : N
  root : N
  refTime : Option Int
  nodes : List (N × List (N × D))
  edges : List ((N × N) × Edge S)
  subs : List (SubInfo N)

namespace Csm
variable {N S D L : Type} [DecidableEq N]

/-- `__init__`, `cs_manager.py` 97-133. Simplification: the automatic manager name (a global counter)
is passed in explicitly. -/
def init (root name : N) (refTime : Option Int) : Csm N S D :=
  { name := name, root := root, refTime := refTime, nodes := [(root, [])], edges := [], subs := [] }

/-- `coordinate_system_names`, `cs_manager.py` 939-949 (`list(self.graph.nodes)`). -/
def names (m : Csm N S D) : List N := Dict.keys m.nodes

/-- `has_coordinate_system`, `cs_manager.py` 1276-1290. -/
def has (m : Csm N S D) (n : N) : Bool := n ∈ m.names

/-- `graph.neighbors(n)`: successors of a node in edge insertion order. -/
def succs (m : Csm N S D) (n : N) : List N :=
  (m.edges.filter (fun e => e.1.1 = n)).map (fun e => e.1.2)

/-- `graph.edges[(a, b)]` -/
def edge? (m : Csm N S D) (a b : N) : Option (Edge S) := Dict.get? m.edges (a, b)

/-- One level of the breadth first search: extend every path (stored in reverse) by one unvisited
successor. -/
def extendPaths (m : Csm N S D) (ps : List (List N)) : List (List N) :=
  ps.flatMap fun p => match p with
    | [] => []
    | x :: r => ((m.succs x).filter (fun y => y ∉ x :: r)).map (fun y => y :: x :: r)

/-- Breadth first search: look for a path ending in `t`, level by level. -/
def searchPath (m : Csm N S D) (t : N) : Nat → List (List N) → Option (List N)
  | 0, _ => none
  | k + 1, ps => match ps.find? (fun p => p.head? = some t) with
    | some p => some p.reverse
    | none => searchPath m t k (m.extendPaths ps)

/-- `networkx.shortest_path(graph, s, t)`: a path with the fewest edges, `none` if there is none. -/
def shortestPath (m : Csm N S D) (s t : N) : Option (List N) :=
  if s ∈ m.names ∧ t ∈ m.names then m.searchPath t m.nodes.length [[s]] else none

/-! ### Queries -/

/-- `_check_coordinate_system_exists`, `cs_manager.py` 276-289. -/
def checkExists (m : Csm N S D) (n : N) : Except CsmError Unit :=
  if m.has n then .ok () else .error .valueError

/-- `neighbors`, `cs_manager.py` 1398-1413. -/
def neighbors (m : Csm N S D) (n : N) : Except CsmError (List N) := do
  m.checkExists n
  pure (m.succs n)

/-- `is_neighbor_of`, `cs_manager.py` 1380-1396. -/
def isNeighborOf (m : Csm N S D) (a b : N) : Except CsmError Bool := do
  m.checkExists a
  m.checkExists b
  let ns ← m.neighbors a
  pure (decide (b ∈ ns))

/-- `get_parent_system_name`, `cs_manager.py` 1248-1274. -/
def getParent (m : Csm N S D) (n : N) : Except CsmError (Option N) :=
  if n = m.root then .ok none
  else do
    m.checkExists n
    match m.shortestPath n m.root with
    | none => .error .noPath
    | some (_ :: y :: _) => .ok (some y)
    | some _ => .error .indexError

/-- `get_child_system_names(n, neighbors_only=True)`, `cs_manager.py` 921-926. The parent, which the
code looks up once per neighbour, is looked up once if there is any neighbour. -/
def directChildren (m : Csm N S D) (n : N) : Except CsmError (List N) := do
  let ns ← m.neighbors n
  if ns = [] then .ok []
  else do
    let p ← m.getParent n
    .ok (ns.filter (fun c => some c ≠ p))

/-- inner `for` loop of `get_child_system_names`, `cs_manager.py` 931-933 -/
def childrenOf (m : Csm N S D) : List N → Except CsmError (List N)
  | [] => .ok []
  | c :: t => do
    let a ← m.directChildren c
    let b ← m.childrenOf t
    .ok (a ++ b)

/-- `while` loop of `get_child_system_names`, `cs_manager.py` 928-937. The first argument bounds the
number of iterations; running out of it is reported as the error `diverge`. -/
def childrenLoop (m : Csm N S D) : Nat → List N → List N → Except CsmError (List N)
  | _, [], all => .ok all
  | 0, _ :: _, _ => .error .diverge
  | k + 1, c :: t, all => do
    let new ← m.childrenOf (c :: t)
    m.childrenLoop k new (all ++ new)

/-- `get_child_system_names(n, neighbors_only=False)`, `cs_manager.py` 928-937. -/
def allChildren (m : Csm N S D) (n : N) : Except CsmError (List N) := do
  let cur ← m.directChildren n
  m.childrenLoop m.nodes.length cur cur

/-- `data_names`, `cs_manager.py` 951-964. -/
def dataNames (m : Csm N S D) : List N := m.nodes.flatMap (fun e => Dict.keys e.2)

/-- `_find_data`, `cs_manager.py` 966-972. -/
def findData (m : Csm N S D) (d : N) : Except CsmError (N × D) :=
  match m.nodes.findSome? (fun e => (Dict.get? e.2 d).map (fun v => (e.1, v))) with
  | some r => .ok r
  | none => .error .keyError

/-- `has_data`, `cs_manager.py` 1292-1308. -/
def hasData (m : Csm N S D) (cs d : N) : Except CsmError Bool :=
  match Dict.get? m.nodes cs with
  | none => .error .keyError
  | some ds => .ok (decide (d ∈ Dict.keys ds))

section Lcs
variable [LcsLike S]

/-- `lcs`, `cs_manager.py` 192-209. -/
def lcs (m : Csm N S D) : List S :=
  m.edges.filterMap (fun e => if e.2.defined then e.2.transformation else none)

/-- `lcs_time_dependent`, `cs_manager.py` 211-221. -/
def lcsTimeDependent (m : Csm N S D) : List S := m.lcs.filter LcsLike.isTimeDependent

/-- `_has_lcs_with_time_ref`, `cs_manager.py` 321-332, and `uses_absolute_times`, 223-234. -/
def usesAbsoluteTimes (m : Csm N S D) : Bool :=
  m.lcsTimeDependent.any (fun s => (LcsLike.refTime s).isSome) || m.refTime.isSome

end Lcs

section Transform
variable [Group L]

/-- `_get_cs_on_edge`, `cs_manager.py` 1024-1061. `ev` is the evaluation of a stored system at the
requested time (static systems evaluate to themselves); it may fail. -/
def csOnEdge (ev : S → Except CsmError L) (m : Csm N S D) (a b : N) : Except CsmError L :=
  match m.edge? a b with
  | none => .error .keyError
  | some e => match e.transformation with
    | some s => ev s
    | none => match m.edge? b a with
      | none => .error .keyError
      | some e' => match e'.transformation with
        | none => .error .valueError
        | some s => (ev s).map (·⁻¹)

/-- The loop `for edge in path_edges[1:]: lcs_result += …`, `cs_manager.py` 1240-1246, over the
remaining path `a :: rest`. -/
def composePath (ev : S → Except CsmError L) (m : Csm N S D) : L → N → List N → Except CsmError L
  | acc, _, [] => .ok acc
  | acc, a, b :: r => do
    let x ← m.csOnEdge ev a b
    m.composePath ev (acc * x) b r

/-- `get_cs`, `cs_manager.py` 1063-1246, at one requested time; `*` on `L` is the `+` of
`LocalCoordinateSystem`. The selection of the time axis (1212-1238) is the subject of `Verif.TimeLcs`. -/
def getCs (ev : S → Except CsmError L) (m : Csm N S D) (n : N) (ref : Option N) :
    Except CsmError L := do
  let r ← match ref with
    | some r => pure r
    | none => do
      match ← m.getParent n with
      | some p => pure p
      | none => .error .valueError
  m.checkExists n
  m.checkExists r
  if n = r then .ok 1
  else match m.shortestPath n r with
    | none => .error .noPath
    | some (a :: b :: rest) => do
      let x ← m.csOnEdge ev a b
      m.composePath ev x b rest
    | some _ => .error .indexError

/-- `transform_data`, `cs_manager.py` 1709-1757: `act` applies a static coordinate system to data. -/
def transformData (ev : S → Except CsmError L) (act : L → D → D) (m : Csm N S D) (data : D)
    (src tgt : N) : Except CsmError D := do
  let l ← m.getCs ev src (some tgt)
  .ok (act l data)

/-- `get_data`, `cs_manager.py` 974-1006. -/
def getData (ev : S → Except CsmError L) (act : L → D → D) (m : Csm N S D) (d : N)
    (target : Option N) : Except CsmError D := do
  let (cs, data) ← m.findData d
  match target with
  | none => .ok data
  | some t => if t = cs then .ok data else m.transformData ev act data cs t

end Transform

/-! ### Commands -/

/-- exceptions and mutable state of one manager -/
abbrev Cmd (N S D α : Type) := Py CsmError (Csm N S D) α

/-- `_add_coordinate_system_node`, `cs_manager.py` 249-251 with 291-306. -/
def addNode (n : N) : Cmd N S D Unit := do
  let m ← Py.get
  if m.has n then Py.raise .valueError
  else Py.modify fun m => { m with nodes := Dict.set m.nodes n [] }

/-- `graph.remove_node(n)`: drops the node and all its edges. -/
def removeNode (n : N) : Cmd N S D Unit := do
  let m ← Py.get
  if m.has n then
    Py.modify fun m =>
      { m with nodes := Dict.erase m.nodes n,
               edges := m.edges.filter (fun e => e.1.1 ≠ n ∧ e.1.2 ≠ n) }
  else Py.raise .nxError

section Lcs
variable [LcsLike S]

/-- The system stored for the direction the user did not define, `cs_manager.py` 268-274, 373-376. -/
def reverseOf (s : S) : Option S := if LcsLike.isSeries s then none else some (LcsLike.invert s)

/-- `_add_edges`, `cs_manager.py` 253-274. -/
def addEdges (a b : N) (s : S) : Cmd N S D Unit := do
  Py.modify fun m => { m with edges := Dict.set m.edges (a, b) ⟨true, some s⟩ }
  Py.modify fun m => { m with edges := Dict.set m.edges (b, a) ⟨false, reverseOf s⟩ }

/-- `_update_local_coordinate_system`, `cs_manager.py` 353-377. A missing edge is a `KeyError`; as in
the code, the forward edge is already changed when the reverse edge is found missing. -/
def updateLcs (a b : N) (s : S) : Cmd N S D Unit := do
  let m ← Py.get
  if (m.edge? a b).isNone then Py.raise .keyError
  else do
    Py.modify fun m => { m with edges := Dict.set m.edges (a, b) ⟨true, some s⟩ }
    let m ← Py.get
    if (m.edge? b a).isNone then Py.raise .keyError
    else Py.modify fun m => { m with edges := Dict.set m.edges (b, a) ⟨false, reverseOf s⟩ }

/-- The time reference check of `add_cs`, `cs_manager.py` 498-514: `true` means "reject". -/
def addCsRejected (m : Csm N S D) (s : S) : Bool :=
  LcsLike.isTimeDependent s && decide (m.lcsTimeDependent.length > 0) &&
    (((LcsLike.refTime s).isSome && !m.usesAbsoluteTimes) ||
      ((!(LcsLike.refTime s).isSome && !m.refTime.isSome) && m.usesAbsoluteTimes))

/-- `add_cs`, `cs_manager.py` 438-552. `lsc` is the deprecated spelling of the last parameter. The
`isinstance` check (493-496) is expressed by the type of `s`. -/
def addCs (n ref : N) (s : S) (childInParent : Bool := true) (lsc : Bool := true) :
    Cmd N S D Unit := do
  let dir := if !lsc && childInParent then lsc else childInParent
  let m ← Py.get
  if m.addCsRejected s then Py.raise .weldxException
  else if m.has n then do
    if !(← Py.lift (m.isNeighborOf n ref)) then Py.raise .valueError
    else if dir then updateLcs n ref s else updateLcs ref n s
  else do
    Py.lift (m.checkExists ref)
    addNode n
    if dir then addEdges n ref s else addEdges ref n s

end Lcs

/-- Is the subsystem affected by the deletion of `n`? `cs_manager.py` 882-887. -/
def subAffected (m : Csm N S D) (n : N) (sub : SubInfo N) : Except CsmError Bool :=
  if n ∈ sub.members then .ok true
  else match m.shortestPath sub.root m.root with
    | none => .error .noPath
    | some p => .ok (decide (n ∈ p))

/-- loop collecting the names of affected subsystems, `cs_manager.py` 880-888 -/
def affectedNames (m : Csm N S D) (n : N) : List (SubInfo N) → Except CsmError (List N)
  | [] => .ok []
  | s :: t => do
    let b ← m.subAffected n s
    let r ← m.affectedNames n t
    .ok (if b then s.name :: r else r)

/-- remove several nodes one after the other, `cs_manager.py` 897-898 -/
def removeNodes : List N → Cmd N S D Unit
  | [] => pure ()
  | n :: t => do
    removeNode n
    removeNodes t

/-- `delete_cs`, `cs_manager.py` 833-899. -/
def deleteCs (n : N) (delChildren : Bool := false) : Cmd N S D Unit := do
  let m ← Py.get
  if !m.has n then pure ()
  else if n = m.root then Py.raise .valueError
  else do
    let children ← Py.lift (m.allChildren n)
    if !delChildren && decide (children.length > 0) then Py.raise .weldxException
    else do
      let rem ← Py.lift (m.affectedNames n m.subs)
      Py.modify fun m => { m with subs := m.subs.filter (fun s => s.name ∉ rem) }
      if delChildren then removeNodes children else pure ()
      removeNode n

/-- `assign_data`, `cs_manager.py` 577-630. -/
def assignData [Group L] (ev : S → Except CsmError L) (act : L → D → D) (data : D) (d ref : N)
    (target : Option N := none) : Cmd N S D Unit := do
  let m ← Py.get
  if d ∈ m.dataNames then Py.raise .valueError
  else do
    Py.lift (m.checkExists ref)
    let (cs, data) ← match target with
      | none => pure (ref, data)
      | some t => do
        Py.lift (m.checkExists t)
        let x ← Py.lift (m.transformData ev act data ref t)
        pure (t, x)
    match Dict.get? m.nodes cs with
    | none => Py.raise .keyError
    | some ds => Py.modify fun m => { m with nodes := Dict.set m.nodes cs (Dict.set ds d data) }

/-- Remove a data set from the first node that has it, `cs_manager.py` 649-654; `none` if no node
has it. -/
def popData (d : N) : List (N × List (N × D)) → Option (List (N × List (N × D)))
  | [] => none
  | (n, ds) :: t =>
    if d ∈ Dict.keys ds then some ((n, Dict.erase ds d) :: t)
    else (popData d t).map ((n, ds) :: ·)

/-- `delete_data`, `cs_manager.py` 632-656. -/
def deleteData (d : N) : Cmd N S D Unit := do
  Py.modify fun m => { m with subs := m.subs.map (SubInfo.discard d) }
  let m ← Py.get
  match popData d m.nodes with
  | none => Py.raise .valueError
  | some ns => Py.modify fun m => { m with nodes := ns }

/-! ### Subsystems -/

section Lcs
variable [LcsLike S]

/-- The time reference check of `merge`, `cs_manager.py` 1839-1855: `true` means "reject". -/
def mergeRejected (m o : Csm N S D) : Bool :=
  decide (o.lcsTimeDependent.length > 0) &&
    ((!m.usesAbsoluteTimes && o.usesAbsoluteTimes) ||
      ((m.usesAbsoluteTimes && !m.refTime.isSome) && !o.usesAbsoluteTimes) ||
      ((m.refTime.isSome && o.usesAbsoluteTimes) && decide (m.refTime ≠ o.refTime)))

/-- `merge`, `cs_manager.py` 1825-1891. `networkx.compose(G, H)` updates the node and edge
dictionaries of a copy of `G` with those of `H`. -/
def merge (o : Csm N S D) : Cmd N S D Unit := do
  let m ← Py.get
  if m.mergeRejected o then Py.raise .valueError
  else match m.names.filter (fun n => n ∈ o.names) with
    | [c] => do
      if o.dataNames.any (fun d => decide (d ∈ m.dataNames)) then Py.raise .nameError
      else match Dict.get? m.nodes c, Dict.get? o.nodes c with
        | some dm, some do' => do
          Py.modify fun m => { m with nodes := Dict.update m.nodes o.nodes
                                      edges := Dict.update m.edges o.edges }
          Py.modify fun m => { m with nodes := Dict.set m.nodes c (Dict.update dm do') }
          Py.modify fun m => { m with
            subs := m.subs ++ [.mk o.name o.root c o.refTime o.names o.dataNames o.subs] }
        | _, _ => Py.raise .keyError
    | _ => Py.raise .valueError

end Lcs

/-- `_subsystem_common_node_data`, `cs_manager.py` 1809-1815. -/
def subCommonData (m : Csm N S D) (sub : SubInfo N) : Except CsmError (List N) :=
  match Dict.get? m.nodes sub.common with
  | none => .error .keyError
  | some ds => .ok ((Dict.keys ds).filter (fun d => d ∈ sub.data))

/-- `_subsystem_common_node_neighbors`, `cs_manager.py` 1817-1823. -/
def subCommonNeighbors (m : Csm N S D) (sub : SubInfo N) : Except CsmError (List N) :=
  if m.has sub.common then .ok ((m.succs sub.common).filter (fun n => n ∈ sub.members))
  else .error .nxError

/-- One iteration of the `subsystems` property, `cs_manager.py` 1984-1998, with
`_from_subsystem_graph`, 1789-1807. `subgraph(members).copy()` keeps the nodes and edges inside
`members`; the model keeps their order. -/
def extract (m : Csm N S D) (sub : SubInfo N) : Except CsmError (Csm N S D) :=
  let ns := m.nodes.filter (fun e => e.1 ∈ sub.members)
  match Dict.get? ns sub.common with
  | none => .error .keyError
  | some ds => do
    let keep ← m.subCommonData sub
    .ok { name := sub.name, root := sub.root, refTime := sub.timeRef,
          nodes := Dict.set ns sub.common (ds.filter (fun e => e.1 ∈ keep)),
          edges := m.edges.filter (fun e => e.1.1 ∈ sub.members ∧ e.1.2 ∈ sub.members),
          subs := sub.subs }

/-- `subsystems`, `cs_manager.py` 1973-2000. -/
def subsystems (m : Csm N S D) : Except CsmError (List (Csm N S D)) := m.subs.mapM m.extract

/-- first loop of `remove_subsystems`, `cs_manager.py` 1896-1904: collects the systems to delete and
drops the subsystem's data from the common node. -/
def removeSubsLoop : List (SubInfo N) → List N → Cmd N S D (List N)
  | [], acc => pure acc
  | sub :: t, acc => do
    let m ← Py.get
    let ns ← Py.lift (m.subCommonNeighbors sub)
    let drop ← Py.lift (m.subCommonData sub)
    match Dict.get? m.nodes sub.common with
    | none => Py.raise .keyError
    | some ds => do
      Py.modify fun m =>
        { m with nodes := Dict.set m.nodes sub.common (ds.filter (fun e => e.1 ∉ drop)) }
      removeSubsLoop t (acc ++ ns)

/-- second loop of `remove_subsystems`, `cs_manager.py` 1907-1908 -/
def deleteAll : List N → Cmd N S D Unit
  | [] => pure ()
  | n :: t => do
    deleteCs n true
    deleteAll t

/-- `remove_subsystems`, `cs_manager.py` 1893-1908. -/
def removeSubsystems : Cmd N S D Unit := do
  let m ← Py.get
  let del ← removeSubsLoop m.subs []
  Py.modify fun m => { m with subs := [] }
  deleteAll del

/-- `unmerge`, `cs_manager.py` 1910-1942 (the warning about lost systems, 1930-1940, is in `unmergeWarn`). -/
def unmerge : Cmd N S D (List (Csm N S D)) := do
  let m ← Py.get
  let subs ← Py.lift m.subsystems
  removeSubsystems
  pure subs

end Csm
end Weldx
