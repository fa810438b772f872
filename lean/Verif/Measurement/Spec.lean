import Verif.Measurement.Model
import Mathlib.Logic.Relation

/-!
# Vocabulary for the properties of measurement chains
-/

namespace Weldx.Meas
variable {U D : Type}

/-- `a` is the input signal of the transformation that produces `b`. -/
def Feeds (g : Graph U) (a b : String) : Prop := ∃ e, ((a, b), e) ∈ g.edges

/-- The graph of a chain is a tree that starts at the source. -/
structure IsTree (g : Graph U) (src : String) : Prop where
  /-- names are unique -/
  names_unique : (Dict.keys g.nodes).Nodup
  source_mem : src ∈ Dict.keys g.nodes
  /-- no transformation produces the signal of the source -/
  source_no_input : ∀ a, ¬ Feeds g a src
  /-- each other signal is produced by exactly one transformation, which has the name of the signal -/
  produced : ∀ n ∈ Dict.keys g.nodes, n ≠ src → ∃ a e, ((a, n), e) ∈ g.edges ∧
    e.transformation.name = n ∧ ∀ a' e', ((a', n), e') ∈ g.edges → a' = a ∧ e' = e
  /-- transformations connect existing signals -/
  ends : ∀ a b, Feeds g a b → a ∈ Dict.keys g.nodes ∧ b ∈ Dict.keys g.nodes
  /-- all signals originate from the source -/
  reachable : ∀ n ∈ Dict.keys g.nodes, Relation.ReflTransGen (Feeds g) src n

/-- `s` is the signal with the name `n`. -/
def SignalOf (sigs : List (Signal U D)) (g : Graph U) (n : String) (s : Signal U D) : Prop :=
  ∃ r, Dict.get? g.nodes n = some r ∧ sigs[r]? = some s

/-- A transformation fits to its input and output signal: type letters and units. -/
def Fits (tr : Transformation U) (a b : Signal U D) : Prop :=
  (match tr.ty with
    | none => b.ty = a.ty
    | some (i, o) => a.ty = i ∧ b.ty = o) ∧
  (match tr.func with
    | none => b.units = a.units
    | some f => f.unit a.units = some b.units)

end Weldx.Meas
