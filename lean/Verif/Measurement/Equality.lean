import Verif.Measurement.Props

/-!
# Comparison of measurement chains (C76)

Source: `/repo/weldx/measurement.py` 272-282 (`MeasurementChain.__eq__`), 34-40, 85-97, 122-138 (data classes).

The graphs are compared by their views: `graph.nodes` is a mapping, so that the attributes of the nodes (the signals) are compared;
`graph.edges` is first of all a set (`class OutEdgeView(Set, Mapping)` of networkx), so that the attributes of the edges (transformations
and equipment) are not. Simplifications: as in `Measurement/Model.lean`.
-/

namespace Weldx.Meas
variable {U D : Type}

/-- two sources are compared by their content -/
def Source.eq (w : World U D) (s t : Source) : Prop := s.name = t.name ∧ w.sigs[s.sig]? = w.sigs[t.sig]?

/-- two optional pieces of equipment are compared by their content -/
def equipmentEq (w : World U D) : Option (Equipment U) → Option (Equipment U) → Prop
  | none, none => True
  | some e, some f => e.name = f.name ∧ List.Forall₂ (Source.eq w) e.sources f.sources ∧ e.transformations = f.transformations
  | _, _ => False

/-- `MeasurementChain.__eq__`, `measurement.py` 272-282 -/
def chainEq (w : World U D) (c d : Nat) : Prop := ∃ ch g ch' g', w.chainGraph c = .ok (ch, g) ∧ w.chainGraph d = .ok (ch', g') ∧
  ch.name = ch'.name ∧ Source.eq w ch.source ch'.source ∧ equipmentEq w ch.equipment ch'.equipment ∧
  (∀ n, (Dict.get? g.nodes n).map (w.sigs[·]?) = (Dict.get? g'.nodes n).map (w.sigs[·]?)) ∧
  ∀ p, p ∈ Dict.keys g.edges ↔ p ∈ Dict.keys g'.edges

theorem equipmentEq_refl (w : World U D) (e : Option (Equipment U)) : equipmentEq w e e := by
  cases e with
  | none => trivial
  | some e => exact ⟨rfl, List.forall₂_same.2 fun _ _ => ⟨rfl, rfl⟩, rfl⟩

theorem equipmentEq_symm {w : World U D} {e f : Option (Equipment U)} (h : equipmentEq w e f) : equipmentEq w f e := by
  cases e <;> cases f
  · trivial
  · exact h.elim
  · exact h.elim
  · exact ⟨h.1.symm, (List.Forall₂.flip h.2.1).imp fun _ _ h => ⟨h.1.symm, h.2.symm⟩, h.2.2.symm⟩

theorem forall₂_trans {A : Type} {R : A → A → Prop} (hR : ∀ {x y z}, R x y → R y z → R x z) {a b c : List A}
    (h : List.Forall₂ R a b) (h' : List.Forall₂ R b c) : List.Forall₂ R a c := by
  induction h generalizing c with
  | nil => cases h'; exact .nil
  | cons h1 _ ih => cases h' with | cons h2 h3 => exact .cons (hR h1 h2) (ih h3)

theorem equipmentEq_trans {w : World U D} {e f g : Option (Equipment U)} (h : equipmentEq w e f) (h' : equipmentEq w f g) :
    equipmentEq w e g := by
  cases e <;> cases f <;> cases g
  all_goals first | exact h.elim | exact h'.elim | trivial | skip
  exact ⟨h.1.trans h'.1, forall₂_trans (fun h1 h2 => ⟨h1.1.trans h2.1, h1.2.trans h2.2⟩) h.2.1 h'.2.1, h.2.2.trans h'.2.2⟩

/-- **C76.** The comparison of measurement chains is an equivalence. -/
theorem C76_chain_equivalence (w : World U D) : (∀ c ch g, w.chainGraph c = .ok (ch, g) → chainEq w c c) ∧
    (∀ c d, chainEq w c d → chainEq w d c) ∧ ∀ c d e, chainEq w c d → chainEq w d e → chainEq w c e := by
  refine ⟨?_, ?_, ?_⟩
  · intro c ch g h
    exact ⟨ch, g, ch, g, h, h, rfl, ⟨rfl, rfl⟩, equipmentEq_refl _ _, fun _ => rfl, fun _ => Iff.rfl⟩
  · rintro c d ⟨ch, g, ch', g', h1, h2, h3, h4, h5, h6, h7⟩
    exact ⟨ch', g', ch, g, h2, h1, h3.symm, ⟨h4.1.symm, h4.2.symm⟩, equipmentEq_symm h5, fun n => (h6 n).symm, fun p => (h7 p).symm⟩
  · rintro c d e ⟨ch, g, ch', g', h1, h2, h3, h4, h5, h6, h7⟩ ⟨ch2, g2, ch3, g3, k1, k2, k3, k4, k5, k6, k7⟩
    rw [h2] at k1
    cases k1
    exact ⟨ch, g, ch3, g3, h1, k2, h3.trans k3, ⟨h4.1.trans k4.1, h4.2.trans k4.2⟩, equipmentEq_trans h5 k5,
      fun n => (h6 n).trans (k6 n), fun p => (h7 p).trans (k7 p)⟩

/-- **C76 (partial).** Equal chains have the same signals under the same names, and the signals are connected in the same way.
Missing: the transformations, see `C76_chain_transformations`. -/
theorem C76_chain_signals_partial {w : World U D} {c d : Nat} (h : chainEq w c d) : ∃ ch g ch' g', w.chainGraph c = .ok (ch, g) ∧
    w.chainGraph d = .ok (ch', g') ∧ (∀ n, getSignal w c n = getSignal w d n) ∧ (∀ n, n ∈ Dict.keys g.nodes ↔ n ∈ Dict.keys g'.nodes) ∧
    (∀ n, getSignalData w c (some n) = getSignalData w d (some n)) ∧ ∀ a b, Feeds g a b ↔ Feeds g' a b := by
  obtain ⟨ch, g, ch', g', h1, h2, _, _, _, h6, h7⟩ := h
  have hk : ∀ n, n ∈ Dict.keys g.nodes ↔ n ∈ Dict.keys g'.nodes := by
    intro n
    rw [← Dict.get?_isSome, ← Dict.get?_isSome]
    have := h6 n
    cases hx : Dict.get? g.nodes n <;> cases hy : Dict.get? g'.nodes n <;> rw [hx, hy] at this <;> simp at this ⊢
  have hat : ∀ n, (w.signalAt g n).map Prod.snd = (w.signalAt g' n).map Prod.snd := by
    intro n
    have := h6 n
    unfold World.signalAt
    cases hx : Dict.get? g.nodes n <;> cases hy : Dict.get? g'.nodes n <;> rw [hx, hy] at this
    · simp at this
    · simp at this
    · simp only [Option.map_some, Option.some.injEq] at this
      simp only [this]
      rename_i v
      cases w.sigs[v]? <;> rfl
  refine ⟨ch, g, ch', g', h1, h2, ?_, hk, ?_, ?_⟩
  · intro n
    simp only [getSignal, h1, h2, bind, Except.bind, hk, hat]
  · intro n
    simp only [getSignalData, h1, h2, bind, Except.bind, checkNode, hk]
    split
    · rename_i n' e
      split at e
      · cases e
      · cases e; rfl
    · rename_i n' e
      have hn : n' = n := by
        split at e
        · cases e; rfl
        · cases e
      subst hn
      have := hat n'
      cases hx : w.signalAt g n' <;> cases hy : w.signalAt g' n' <;> rw [hx, hy] at this
      · cases this; rfl
      · cases this
      · cases this
      · simp only [Except.map, Except.ok.injEq] at this
        simp only [this]
  · intro a b
    have := h7 (a, b)
    rw [Dict.mem_keys_iff, Dict.mem_keys_iff] at this
    exact this

/-- two chains with the same signals: the first one has the given transformation, the second one another -/
def twinOps (t t' : Transformation (Multiplicative ℤ)) : List (Op (Multiplicative ℤ) Nat) :=
  [ .newSignal .analog volt none,
    .newChain "chain" ⟨"src", 0⟩ none,
    .newChain "chain" ⟨"src", 0⟩ none,
    .addTransformation 0 t none none,
    .addTransformation 1 t' none none ]

/-- **C76, refutation.** Chains with different transformations are equal if these give signals of the same type and unit: here a
function and a pure change of type. -/
theorem C76_chain_transformations : ∃ w : World (Multiplicative ℤ) Nat, (∃ ops, w = runAll ops) ∧ chainEq w 0 1 ∧
    ∃ t t', getTransformation w 0 "filter" = .ok t ∧ getTransformation w 1 "filter" = .ok t' ∧ t ≠ t' := by
  refine ⟨runAll (twinOps ⟨"filter", some ⟨1, some⟩, none⟩ ⟨"filter", none, some (.analog, .analog)⟩), ⟨_, rfl⟩, ?_, _, _, rfl, rfl, ?_⟩
  · refine ⟨_, _, _, _, rfl, rfl, rfl, ⟨rfl, rfl⟩, trivial, ?_, ?_⟩
    · intro n
      by_cases h1 : n = "src"
      · subst h1; rfl
      · by_cases h2 : n = "filter"
        · subst h2; rfl
        · have e : ∀ r : Nat, Dict.get? [("src", 0), ("filter", r)] n = none := by
            intro r
            rw [Dict.get?_eq_none]
            simp [Dict.keys, h1, h2]
          exact (congrArg _ (e 1)).trans (congrArg _ (e 2)).symm
    · intro p
      exact Iff.rfl
  · simp

end Weldx.Meas
