import Verif.Csm.MergeProps

/-!
# `unmerge` with its warning, and what it should do after changes made since the merge
-/

set_option linter.unusedSectionVars false

namespace Weldx.Csm
variable {N S D L : Type} [DecidableEq N] [LcsLike S]

/-- `unmerge` with the names that its warning lists (no warning is given for an empty list),
`cs_manager.py` 1926-1943. -/
def unmergeWarn : Cmd N S D (List (Csm N S D) × List N) := do
  let m ← Py.get
  let subs ← Py.lift m.subsystems
  removeSubsystems
  let m' ← Py.get
  let rem := m.names.filter (fun n => n ∉ m'.names)
  pure (subs, subs.foldl (fun rem o => rem.filter (fun n => n ∉ o.names)) rem)

/-! ### specification -/

/-- The path from `n` to the root passes `y` (or starts there). -/
def Via (m : Csm N S D) (n y : N) : Prop := ∃ p, SimplePath m.Adj n m.root p ∧ y ∈ p

/-- The system stays in the manager when the subsystems are removed: its path to the root does not use
a link from a merge point into the manager that was merged there. -/
def Kept (m : Csm N S D) (n : N) : Prop :=
  n ∈ m.names ∧ ∀ s ∈ m.subs, ∀ y ∈ s.members, m.Adj s.common y → ¬ m.Via n y

/-- `o` is what `unmerge` has to return for the subsystem record `s`. -/
structure Returned (m : Csm N S D) (s : SubInfo N) (o : Csm N S D) : Prop where
  name : o.name = s.name
  root : o.root = s.root
  refTime : o.refTime = s.timeRef
  subs : o.subs = s.subs
  systems : ∀ n, n ∈ o.names ↔ n ∈ s.members
  relations : ∀ a b x, o.Supplied a b x ↔ a ∈ s.members ∧ b ∈ s.members ∧ m.Supplied a b x
  data : ∀ n d v, o.StoredAt n d v ↔ n ∈ s.members ∧ m.StoredAt n d v ∧ (n = s.common → d ∈ s.data)

/-- `m'` is what has to be left of `m` after `unmerge`. -/
structure Remaining (m m' : Csm N S D) : Prop where
  name : m'.name = m.name
  root : m'.root = m.root
  refTime : m'.refTime = m.refTime
  subs : m'.subs = []
  systems : ∀ n, n ∈ m'.names ↔ m.Kept n
  relations : ∀ a b x, m'.Supplied a b x ↔ m.Kept a ∧ m.Kept b ∧ m.Supplied a b x
  data : ∀ n d v, m'.StoredAt n d v ↔ m.Kept n ∧ m.StoredAt n d v ∧
    ¬ ∃ s ∈ m.subs, s.common = n ∧ d ∈ s.data

end Weldx.Csm
