import Verif.Csm.MergeProps

/-!
# Writing a manager to a file and reading it back: model

Source: `/repo/weldx/tags/core/graph.py` (`build_tree` 68-118, `build_graph` 121-151, `DiGraphConverter` 154-174),
`/repo/weldx/tags/core/transformations/coordinate_system_hierarchy.py` 15-35, `/repo/weldx/transformations/cs_manager.py`
1761-1807 (`_from_yaml_tree`, `_from_subsystem_graph`).

Simplifications: the file keeps coordinate systems, data, names and times exactly; a missing list of edges is an empty one
(`asdf` drops `None`, the default of `DiNode.edges` is an empty list); names are not UUIDs; subsystem records are written and
read field by field, so they are passed unchanged (the order of sets may change). The recursion of `build_tree` gets a bound
for the depth; exceeding it is reported as `diverge`.
-/

namespace Weldx.Csm
variable {N S D : Type} [DecidableEq N]

mutual
/-- `DiNode`, `graph.py` 41-47 -/
inductive DiNode (N S D : Type)
  | mk (name : N) (data : List (N × D)) (edges : DiEdges N S D)
/-- list of `DiEdge`, `graph.py` 12-18: direction (`true` for `"fwd"`), attributes, target -/
inductive DiEdges (N S D : Type)
  | nil
  | cons (fwd : Bool) (attr : Edge S) (target : DiNode N S D) (rest : DiEdges N S D)
end

/-- name of a node -/
def DiNode.name : DiNode N S D → N
  | .mk n _ _ => n

/-- edges supplied by the user, `coordinate_system_hierarchy.py` 18-20 -/
def definedEdges (m : Csm N S D) : List ((N × N) × Edge S) := m.edges.filter fun e => e.2.defined

/-- successors, then predecessors of `n` without the parent, `graph.py` 92-106 -/
def treeLinks (m : Csm N S D) (n : N) (p : Option N) : List (Bool × Edge S × N) :=
  ((m.definedEdges.filter fun e => e.1.1 = n ∧ some e.1.2 ≠ p).map fun e => (true, e.2, e.1.2)) ++
  ((m.definedEdges.filter fun e => e.1.2 = n ∧ some e.1.1 ≠ p).map fun e => (false, e.2, e.1.1))

/-- the children of a node, each built by `f` -/
def buildEdges (f : N → Except CsmError (DiNode N S D)) :
    List (Bool × Edge S × N) → Except CsmError (DiEdges N S D)
  | [] => .ok .nil
  | (d, e, c) :: t => match f c with
    | .error x => .error x
    | .ok v => match buildEdges f t with
      | .error x => .error x
      | .ok r => .ok (.cons d e v r)

/-- `build_tree`, `graph.py` 68-118 -/
def buildTree (m : Csm N S D) : ℕ → N → Option N → Except CsmError (DiNode N S D)
  | 0, _, _ => .error .diverge
  | k + 1, n, p => match buildEdges (fun c => buildTree m k c (some n)) (m.treeLinks n p) with
    | .error x => .error x
    | .ok es => match Dict.get? m.nodes n with
      | none => .error .keyError
      | some ds => .ok (.mk n ds es)

/-- one step of the search for connected systems, ignoring directions -/
def grow (es : List ((N × N) × Edge S)) (l : List N) : List N :=
  l ++ es.filterMap fun e => if e.1.1 ∈ l then some e.1.2 else if e.1.2 ∈ l then some e.1.1 else none

/-- `networkx.is_tree` of the graph of the supplied edges: as many edges as nodes without the root, and connected -/
def nxIsTree (m : Csm N S D) (first : N) : Bool :=
  decide (m.definedEdges.length + 1 = m.names.length) &&
    m.names.all fun x => decide (x ∈ (grow m.definedEdges)^[m.names.length] [first])

/-- the content of the file -/
structure Doc (N S D : Type) where
  name : N
  refTime : Option Int
  graph : DiNode N S D
  subs : List (SubInfo N)

/-- `CoordinateSystemManagerConverter.to_yaml_tree` with `DiGraphConverter.to_yaml_tree`. `edge_subgraph` keeps the systems that
have a supplied edge; without edges `is_tree` raises `NetworkXPointlessConcept`. -/
def write (m : Csm N S D) : Except CsmError (Doc N S D) :=
  let g : Csm N S D := { m with
    nodes := m.nodes.filter fun x => m.definedEdges.any fun e => decide (e.1.1 = x.1) || decide (e.1.2 = x.1) }
  match g.names with
  | [] => .error .nxError
  | first :: _ =>
    if g.nxIsTree first then
      match g.buildTree g.names.length first none with
      | .error e => .error e
      | .ok t => .ok ⟨m.name, m.refTime, t, m.subs⟩
    else .error .valueError

/-- a node that is mentioned by an edge before it is added -/
def touch (ns : List (N × List (N × D))) (x : N) : List (N × List (N × D)) :=
  if x ∈ Dict.keys ns then ns else ns ++ [(x, [])]

/-- `graph.add_edge` -/
def addEdgeTo (u v : N) (a : Edge S) (g : List (N × List (N × D)) × List ((N × N) × Edge S)) :
    List (N × List (N × D)) × List ((N × N) × Edge S) :=
  (touch (touch g.1 u) v, Dict.set g.2 (u, v) a)

mutual
/-- `build_graph`, `graph.py` 117-145 -/
def DiNode.build : DiNode N S D → List (N × List (N × D)) × List ((N × N) × Edge S) →
    List (N × List (N × D)) × List ((N × N) × Edge S)
  | .mk n d es, g => es.build n (Dict.set g.1 n d, g.2)
/-- the loop over the edges -/
def DiEdges.build : DiEdges N S D → N → List (N × List (N × D)) × List ((N × N) × Edge S) →
    List (N × List (N × D)) × List ((N × N) × Edge S)
  | .nil, _, g => g
  | .cons fwd a t r, n, g =>
    r.build n (t.build (if fwd then addEdgeTo n t.name a g else addEdgeTo t.name n a g))
end

variable [LcsLike S]

/-- `transformation.invert()`: not possible for systems described by an expression (`local_cs.py` 786-790) -/
def invertOf : Option S → Except CsmError S
  | none => .error .keyError
  | some s => if LcsLike.isSeries s then .error .weldxException else .ok (LcsLike.invert s)

/-- the loop that adds the missing directions, `cs_manager.py` 1768-1775 -/
def addReverse : List ((N × N) × Edge S) → List ((N × N) × Edge S) → Except CsmError (List ((N × N) × Edge S))
  | [], cur => .ok cur
  | ((a, b), e) :: t, cur =>
    if (b, a) ∈ Dict.keys cur then addReverse t cur
    else match invertOf e.transformation with
      | .error x => .error x
      | .ok s => addReverse t (Dict.set cur (b, a) ⟨false, some s⟩)

/-- `_from_yaml_tree`, `cs_manager.py` 1761-1787: the first node becomes the root -/
def read (d : Doc N S D) : Except CsmError (Csm N S D) :=
  let g := d.graph.build ([], [])
  match addReverse g.2 g.2 with
  | .error e => .error e
  | .ok es => match Dict.keys g.1 with
    | [] => .error .indexError
    | r :: _ => .ok { name := d.name, root := r, refTime := d.refTime, nodes := g.1, edges := es, subs := d.subs }

end Weldx.Csm
