import Verif.Csm.Model
import Verif.Csm.Tree

/-!
# Specification vocabulary for the coordinate system manager
-/

namespace Weldx.Csm
variable {N S D L : Type} [DecidableEq N]

/-- The graph has a link from `a` to `b`. -/
def Adj (m : Csm N S D) (a b : N) : Prop := (a, b) ∈ Dict.keys m.edges

/-- The user supplied the system `s` as "`a` described in `b`". -/
def Supplied (m : Csm N S D) (a b : N) (s : S) : Prop := ((a, b), ⟨true, some s⟩) ∈ m.edges

/-- `x` is a strict descendant of `c`: the path from `x` to the root passes through `c`. -/
def Below (m : Csm N S D) (c x : N) : Prop :=
  x ≠ c ∧ ∃ p, SimplePath m.Adj x m.root p ∧ c ∈ p

/-- According to the supplied systems, the relation of `a` to its neighbour `b` is `x`. -/
def Relation [Group L] (ev : S → Except CsmError L) (m : Csm N S D) (a b : N) (x : L) : Prop :=
  (∃ s, m.Supplied a b s ∧ ev s = .ok x) ∨ (∃ s, m.Supplied b a s ∧ ev s = .ok x⁻¹)

/-- `x` is the composition of the supplied relations along the listed systems. -/
inductive PathProduct [Group L] (ev : S → Except CsmError L) (m : Csm N S D) : List N → L → Prop
  | single (a : N) : PathProduct ev m [a] 1
  | cons {a b : N} {p : List N} {x y : L} : Relation ev m a b x → PathProduct ev m (b :: p) y →
      PathProduct ev m (a :: b :: p) (x * y)

/-- All supplied systems can be evaluated, and inverting a stored system inverts its value. (Static
systems and systems given by a `TimeSeries` satisfy this; see `Verif.TimeLcs` for discrete time
dependent ones.) -/
def Coherent [Group L] [LcsLike S] (ev : S → Except CsmError L) (m : Csm N S D) : Prop :=
  ∀ a b s, m.Supplied a b s →
    ∃ x, ev s = .ok x ∧ (LcsLike.isSeries s = false → ev (LcsLike.invert s) = .ok x⁻¹)

/-- The two directions of a link belong together: one was supplied, the other is its inverse. -/
def Paired [LcsLike S] (e e' : Edge S) : Prop :=
  (∃ s, e = ⟨true, some s⟩ ∧ e' = ⟨false, reverseOf s⟩) ∨
  (∃ s, e' = ⟨true, some s⟩ ∧ e = ⟨false, reverseOf s⟩)

/-- A subsystem record describes a connected part of the systems `V` that contains the subsystem's root
and its merge point, contains the owner's root `r` at most as merge point, and whose own subsystems are
recorded in the same way. -/
inductive SubOK (adj : N → N → Prop) : (V : N → Prop) → (r : N) → SubInfo N → Prop
  | mk {V : N → Prop} {r : N} {sub : SubInfo N}
      (nodup : sub.members.Nodup)
      (subset : ∀ x ∈ sub.members, V x)
      (root_mem : sub.root ∈ sub.members)
      (common_mem : sub.common ∈ sub.members)
      (root_common : r ∈ sub.members → r = sub.common)
      (conn : ∀ x ∈ sub.members, ∃ p, Walk adj x sub.root p ∧ ∀ y ∈ p, y ∈ sub.members)
      (nested : ∀ s ∈ sub.subs, SubOK adj (fun x => x ∈ sub.members) sub.root s) :
      SubOK adj V r sub

/-- Well-formed manager: the systems form a tree that contains the root, both directions of each link
are consistent, names of systems and of data are unique, subsystem records fit the tree. -/
structure Inv [LcsLike S] (m : Csm N S D) : Prop where
  nodesNodup : m.names.Nodup
  edgesNodup : (Dict.keys m.edges).Nodup
  root_mem : m.root ∈ m.names
  tree : IsTree (fun x => x ∈ m.names) m.Adj
  paired : ∀ a b e, ((a, b), e) ∈ m.edges → ∃ e', ((b, a), e') ∈ m.edges ∧ Paired e e'
  dataNodup : m.dataNames.Nodup
  subs_ok : ∀ s ∈ m.subs, SubOK m.Adj (fun x => x ∈ m.names) m.root s

/-- Everything that can be built with the API: managers reached by any sequence of calls from a freshly
created one. Calls that raise are included (with the state they leave behind), `other` in `merge` and
the managers returned by `subsystems`/`unmerge` have histories of their own. (`relabel` and
`interp_time` are treated separately.) -/
inductive Reachable [LcsLike S] : Csm N S D → Prop
  | init (root name : N) (refTime : Option Int) : Reachable (Csm.init root name refTime)
  | addCs {m} (n ref : N) (s : S) (dir lsc : Bool) : Reachable m →
      Reachable (Csm.addCs n ref s dir lsc m).state
  | deleteCs {m} (n : N) (b : Bool) : Reachable m → Reachable (Csm.deleteCs n b m).state
  | assignData {m} {L : Type} [Group L] (ev : S → Except CsmError L) (act : L → D → D) (data : D)
      (d ref : N) (target : Option N) : Reachable m →
      Reachable (Csm.assignData ev act data d ref target m).state
  | deleteData {m} (d : N) : Reachable m → Reachable (Csm.deleteData d m).state
  | merge {m o} : Reachable m → Reachable o → Reachable (Csm.merge o m).state
  | removeSubsystems {m} : Reachable m → Reachable (Csm.removeSubsystems m).state
  | unmerge {m} : Reachable m → Reachable (Csm.unmerge m).state
  | subsystem {m l o} : Reachable m → m.subsystems = .ok l → o ∈ l → Reachable o

end Weldx.Csm
