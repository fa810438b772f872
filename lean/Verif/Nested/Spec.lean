import Verif.Nested.Model

/-!
# What equality of nested data means
-/

namespace Weldx.Nested
variable {A : Type}

mutual
/-- Both values have the same structure and equal leaves. `K` relates the types of the containers. -/
def Same (K : Kind → Kind → Prop) : Value A → Value A → Prop
  | .leaf l, y => y = .leaf l
  | .cont _ kd es, y => ∃ id kd' es', y = .cont id kd' es' ∧ K kd kd' ∧
      (∀ k, k ∈ Dict.keys es'.toList → k ∈ Dict.keys es.toList) ∧ SameEntries K es es'
/-- each item has a counterpart with the same key -/
def SameEntries (K : Kind → Kind → Prop) : Entries A → Entries A → Prop
  | .nil, _ => True
  | .cons k v es, es' => (∃ w, (k, w) ∈ es'.toList ∧ Same K v w) ∧ SameEntries K es es'
end

mutual
/-- Keys are unique, sequences are numbered from 0, and no key is negative. -/
def WF : Value A → Prop
  | .leaf _ => True
  | .cont _ kd es => (Dict.keys es.toList).Nodup ∧ (∀ n : Int, .int n ∈ Dict.keys es.toList → 0 ≤ n) ∧
      (kd ≠ .dict → Dict.keys es.toList = (List.range es.length).map fun (i : Nat) => .int i) ∧ WFEntries es
def WFEntries : Entries A → Prop
  | .nil => True
  | .cons _ v es => WF v ∧ WFEntries es
end

mutual
/-- the identities of all containers -/
def ids : Value A → List Nat
  | .leaf _ => []
  | .cont id _ es => id :: idsEntries es
def idsEntries : Entries A → List Nat
  | .nil => []
  | .cons _ v es => ids v ++ idsEntries es
end

/-- No container occurs twice. -/
def NoSharing (v : Value A) : Prop := (ids v).Nodup

end Weldx.Nested
