import Verif.Csm.RelabelProps

/-!
# Managers as objects that share parts

Model of the objects behind the managers: `/repo/weldx/transformations/cs_manager.py` 438-552 (`add_cs`), 577-656 (`assign_data`,
`delete_data`), 833-899 (`delete_cs`), 1825-1891 (`merge`), 1973-2000 (`subsystems`).

The dictionary with the data of a system, the records of subsystems and the lists of these records are mutable objects; they are
represented by their location in a heap. `networkx.compose(G, H)` and `G.subgraph(...).copy()` copy the attribute dictionaries of nodes
and edges, but not the objects that these contain: the new graph refers to the same data dictionaries. Coordinate systems are
not changed by these functions, so they are kept as values (`interp_time` changes them, see `Csm/InterpTime.lean`).
`assign_data` with a target system is in `Csm/AliasTarget.lean`.
-/

set_option linter.unusedSectionVars false

namespace Weldx.Csm
variable {N S D : Type} [DecidableEq N] [LcsLike S]

/-- a `SubsystemInfo` object; `subs` is the location of its list of nested records -/
structure HInfo (N : Type) where
  name : N
  root : N
  common : N
  timeRef : Option Int
  members : List N
  data : List N
  subs : Nat

/-- all objects; locations from `next` on are unused -/
structure Heap (N D : Type) where
  dict : Nat → List (N × D)
  info : Nat → HInfo N
  list : Nat → List Nat
  next : Nat

/-- a manager object: the graph refers to data dictionaries, `_subsystems` to a list of records -/
structure HCsm (N S : Type) where
  name : N
  root : N
  refTime : Option Int
  nodes : List (N × Nat)
  edges : List ((N × N) × Edge S)
  subs : Nat

/-- names of the systems -/
def HCsm.names (m : HCsm N S) : List N := Dict.keys m.nodes

/-- a record as value; nested records are left out -/
def HInfo.value (i : HInfo N) : SubInfo N := .mk i.name i.root i.common i.timeRef i.members i.data []

/-- what can be seen of a manager -/
def Heap.view (h : Heap N D) (m : HCsm N S) : Csm N S D :=
  { name := m.name, root := m.root, refTime := m.refTime, nodes := m.nodes.map fun x => (x.1, h.dict x.2),
    edges := m.edges, subs := (h.list m.subs).map fun i => (h.info i).value }

/-- replace the content of one location -/
def put {A : Type} (f : Nat → A) (l : Nat) (v : A) : Nat → A := fun x => if x = l then v else f x

/-- commands of one manager -/
abbrev HCmd (N S D α : Type) := Py CsmError (Heap N D × HCsm N S) α

/-- `assign_data(data, d, ref)`, `cs_manager.py` 611-630 -/
def hAssign (v : D) (d ref : N) : HCmd N S D Unit := fun (h, m) =>
  if d ∈ (h.view m).dataNames then .err .valueError (h, m)
  else match Dict.get? m.nodes ref with
    | none => .err .valueError (h, m)
    | some l => .ok () ({ h with dict := put h.dict l (Dict.set (h.dict l) d v) }, m)

/-- `s.data.discard(name)` for all records of a list, `cs_manager.py` 646-647 -/
def Heap.discard (h : Heap N D) (l : List Nat) (d : N) : Heap N D :=
  { h with info := fun i => if i ∈ l then { h.info i with data := (h.info i).data.filter (· ≠ d) } else h.info i }

/-- `delete_data`, `cs_manager.py` 632-656 -/
def hDeleteData (d : N) : HCmd N S D Unit := fun (h, m) =>
  let h := h.discard (h.list m.subs) d
  match m.nodes.find? fun x => d ∈ Dict.keys (h.dict x.2) with
  | none => .err .valueError (h, m)
  | some (_, l) => .ok () ({ h with dict := put h.dict l (Dict.erase (h.dict l) d) }, m)

/-- `add_cs`, `cs_manager.py` 438-552. The decision is taken from the visible content, a new system gets a new dictionary. -/
def hAddCs (n ref : N) (s : S) (dir lsc : Bool) : HCmd N S D Unit := fun (h, m) =>
  match addCs n ref s dir lsc (h.view m) with
  | .err e m' => .err e (h, { m with edges := m'.edges })
  | .ok _ m' =>
    if n ∈ m.names then .ok () (h, { m with edges := m'.edges })
    else .ok () ({ h with dict := put h.dict h.next [], next := h.next + 1 },
      { m with nodes := m.nodes ++ [(n, h.next)], edges := m'.edges })

/-- `delete_cs`, `cs_manager.py` 833-899: the list of records is replaced by a new one -/
def hDeleteCs (n : N) (b : Bool) : HCmd N S D Unit := fun (h, m) =>
  match deleteCs n b (h.view m) with
  | .err e _ => .err e (h, m)
  | .ok _ m' =>
    if n ∉ m.names then .ok () (h, m)
    else .ok ()
      ({ h with list := put h.list h.next ((h.list m.subs).filter fun i => (h.info i).name ∈ m'.subs.map SubInfo.name),
                next := h.next + 1 },
        { m with nodes := m.nodes.filter fun x => x.1 ∈ m'.names, edges := m'.edges, subs := h.next })

/-- `merge`, `cs_manager.py` 1825-1891. The checks are those of the visible content. The new graph refers to the data dictionaries of
both graphs, except for the common system, which gets a new one. The new record refers to the list of records of `o`. -/
def hMerge (o : HCsm N S) : HCmd N S D Unit := fun (h, m) =>
  match merge (h.view o) (h.view m) with
  | .err e _ => .err e (h, m)
  | .ok _ _ =>
    match m.names.filter (fun n => n ∈ o.names) with
    | [c] => match Dict.get? m.nodes c, Dict.get? o.nodes c with
      | some lm, some lo =>
        .ok ()
          ({ dict := put h.dict h.next (Dict.update (h.dict lm) (h.dict lo))
             info := put h.info h.next ⟨o.name, o.root, c, o.refTime, o.names, (h.view o).dataNames, o.subs⟩
             list := put h.list m.subs (h.list m.subs ++ [h.next])
             next := h.next + 1 },
            { m with nodes := Dict.set (Dict.update m.nodes o.nodes) c h.next, edges := Dict.update m.edges o.edges })
      | _, _ => .err .keyError (h, m)
    | _ => .err .valueError (h, m)

/-! ### Objects of their own -/

/-- All locations of a manager are in use, and no two systems share a dictionary. -/
structure HOk (h : Heap N D) (m : HCsm N S) : Prop where
  names : m.names.Nodup
  locs : (m.nodes.map Prod.snd).Nodup
  used : ∀ x ∈ m.nodes, x.2 < h.next
  subs : m.subs < h.next
  infos : ∀ i ∈ h.list m.subs, i < h.next

/-- Two managers have nothing in common. -/
structure Apart (h : Heap N D) (m o : HCsm N S) : Prop where
  dicts : ∀ x ∈ m.nodes, ∀ y ∈ o.nodes, x.2 ≠ y.2
  lists : m.subs ≠ o.subs
  infos : ∀ i ∈ h.list m.subs, i ∉ h.list o.subs

/-- data operations of the manager `m` -/
inductive DataOp (m : HCsm N S) : Heap N D → Heap N D → Prop
  | assign (h : Heap N D) (v : D) (d ref : N) : DataOp m h (hAssign v d ref (h, m)).state.1
  | delete (h : Heap N D) (d : N) : DataOp m h (hDeleteData d (h, m)).state.1

/-- any number of data operations of two managers -/
inductive DataOps (m o : HCsm N S) : Heap N D → Heap N D → Prop
  | refl (h : Heap N D) : DataOps m o h h
  | left {h h' h'' : Heap N D} : DataOps m o h h' → DataOp m h' h'' → DataOps m o h h''
  | right {h h' h'' : Heap N D} : DataOps m o h h' → DataOp o h' h'' → DataOps m o h h''

end Weldx.Csm
