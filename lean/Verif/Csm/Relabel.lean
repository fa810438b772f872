import Verif.Csm.EqualityProps

/-!
# Renaming systems

Model of `CoordinateSystemManager.relabel`, `/repo/weldx/transformations/cs_manager.py` 554-575, with
`networkx.relabel_nodes(graph, mapping, copy=False)`.

`networkx` is not part of `/repo`. Its in-place renaming works as follows: If no old name is also a new name, the systems are renamed in
the order of the graph. Otherwise the names are sorted topologically (new names first); this fails if the mapping has a cycle. Each
system is renamed by adding a node with the new name and the old attributes, and moving the edges.
-/

set_option linter.unusedSectionVars false

namespace Weldx.Csm
variable {N S D L : Type} [DecidableEq N] [LcsLike S]

/-- one iteration of the loop of `_relabel_inplace`; names that are not in the mapping or not in the graph are skipped -/
def relabelStep (mp : List (N × N)) (m : Csm N S D) (old : N) : Csm N S D :=
  match Dict.get? mp old, Dict.get? m.nodes old with
  | some new, some ds =>
    if new = old then { m with nodes := Dict.set m.nodes new ds }
    else
      let moved := (m.edges.filter fun x => x.1.1 = old).map (fun x => ((new, if x.1.2 = old then new else x.1.2), x.2)) ++
        (m.edges.filter fun x => x.1.2 = old).map fun x => ((if x.1.1 = old then new else x.1.1, new), x.2)
      { m with nodes := Dict.erase (Dict.set m.nodes new ds) old
               edges := Dict.update (m.edges.filter fun x => x.1.1 ≠ old ∧ x.1.2 ≠ old) moved }
  | _, _ => m

/-- The order in which `_relabel_inplace` renames. `topo` is `networkx.topological_sort` for the graph with the links `old → new`
(links from a name to itself are ignored), `none` if it has a cycle. -/
def relabelOrder (topo : List (N × N) → Option (List N)) (mp : List (N × N)) (m : Csm N S D) : Option (List N) :=
  if (Dict.keys mp).any fun k => decide (k ∈ mp.map Prod.snd) then (topo mp).map List.reverse
  else some (m.names.filter fun n => n ∈ Dict.keys mp)

/-- `relabel`, `cs_manager.py` 554-575 -/
def relabel (topo : List (N × N) → Option (List N)) (mp : List (N × N)) : Cmd N S D Unit := do
  let m ← Py.get
  let subs ← Py.lift m.subsystems
  if !subs.isEmpty then Py.raise .notImplemented
  else do
    match Dict.get? mp m.root with
    | some r => Py.modify fun m => { m with root := r }
    | none => pure ()
    let m ← Py.get
    match relabelOrder topo mp m with
    | none => Py.raise .nxError
    | some l => Py.modify fun m => l.foldl (relabelStep mp) m

/-! ### Specification -/

/-- what a mapping does with one name -/
def rename (mp : List (N × N)) (n : N) : N := (Dict.get? mp n).getD n

/-- `l` lists all names of the mapping, every old name before its new name. -/
structure TopoOrder (mp : List (N × N)) (l : List N) : Prop where
  nodup : l.Nodup
  mem : ∀ x, x ∈ l ↔ x ∈ Dict.keys mp ∨ x ∈ mp.map Prod.snd
  before : ∀ a b, (a, b) ∈ mp → a ≠ b → ∃ p q, l = p ++ a :: q ∧ b ∈ q

/-- `topo` finds such an order if there is any. -/
def TopoOk (topo : List (N × N) → Option (List N)) : Prop :=
  ∀ mp, match topo mp with
    | some l => TopoOrder mp l
    | none => ¬ ∃ l, TopoOrder mp l

/-- `m'` has the content of `m` under other names. -/
structure Renamed (ρ : N → N) (m m' : Csm N S D) : Prop where
  name : m'.name = m.name
  refTime : m'.refTime = m.refTime
  subs : m'.subs = m.subs
  nodesNodup : m'.names.Nodup
  edgesNodup : (Dict.keys m'.edges).Nodup
  nodes : ∀ n' ds, Dict.get? m'.nodes n' = some ds ↔ ∃ n, Dict.get? m.nodes n = some ds ∧ ρ n = n'
  edges : ∀ a' b' e, ((a', b'), e) ∈ m'.edges ↔ ∃ a b, ((a, b), e) ∈ m.edges ∧ ρ a = a' ∧ ρ b = b'

end Weldx.Csm
