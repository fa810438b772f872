import Verif.Csm.Spec

/-!
# Vocabulary for the statements about merging
-/

namespace Weldx.Csm
variable {N S D : Type} [DecidableEq N]

/-- The data `v` is attached to the system `n` under the name `d`. -/
def StoredAt (m : Csm N S D) (n d : N) (v : D) : Prop :=
  ∃ ds, Dict.get? m.nodes n = some ds ∧ Dict.get? ds d = some v

/-- Two managers have the same content: name, root, reference time, systems, supplied relations, data
and subsystem records. (They may differ in the order in which systems and data are listed.) -/
structure SameAs (m m' : Csm N S D) : Prop where
  name : m'.name = m.name
  root : m'.root = m.root
  refTime : m'.refTime = m.refTime
  subs : m'.subs = m.subs
  systems : ∀ n, n ∈ m'.names ↔ n ∈ m.names
  relations : ∀ a b s, m'.Supplied a b s ↔ m.Supplied a b s
  data : ∀ n d v, m'.StoredAt n d v ↔ m.StoredAt n d v

/-- Merge several managers one after the other, stop at the first that is rejected. -/
def mergeAll [LcsLike S] : List (Csm N S D) → Cmd N S D Unit
  | [] => pure ()
  | o :: t => do
    merge o
    mergeAll t

end Weldx.Csm
