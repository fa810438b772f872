import Verif.Csm.Serial

/-!
# Lemmas about writing and reading managers
-/

set_option linter.unusedSectionVars false

namespace Weldx.Csm
variable {N S D : Type} [DecidableEq N]

/-! ### Trees as lists -/

mutual
/-- all nodes of a tree -/
def DiNode.nodeList : DiNode N S D → List (N × List (N × D))
  | .mk n d es => (n, d) :: es.nodeList
def DiEdges.nodeList : DiEdges N S D → List (N × List (N × D))
  | .nil => []
  | .cons _ _ t r => t.nodeList ++ r.nodeList
end

mutual
/-- all edges of a tree -/
def DiNode.edgeList : DiNode N S D → List ((N × N) × Edge S)
  | .mk n _ es => es.edgeList n
def DiEdges.edgeList : DiEdges N S D → N → List ((N × N) × Edge S)
  | .nil, _ => []
  | .cons fwd a t r, n => (if fwd then (n, t.name) else (t.name, n), a) :: (t.edgeList ++ r.edgeList n)
end

/-- the children -/
def DiEdges.toList : DiEdges N S D → List (Bool × Edge S × DiNode N S D)
  | .nil => []
  | .cons f a t r => (f, a, t) :: r.toList

theorem DiEdges.mem_nodeList {x : N × List (N × D)} : ∀ es : DiEdges N S D,
    x ∈ es.nodeList ↔ ∃ f a t, (f, a, t) ∈ es.toList ∧ x ∈ t.nodeList
  | .nil => by simp [DiEdges.nodeList, DiEdges.toList]
  | .cons f a t r => by
    simp only [DiEdges.nodeList, DiEdges.toList, List.mem_append, List.mem_cons, DiEdges.mem_nodeList r]
    constructor
    · rintro (h | ⟨f', a', t', h1, h2⟩)
      · exact ⟨f, a, t, .inl rfl, h⟩
      · exact ⟨f', a', t', .inr h1, h2⟩
    · rintro ⟨f', a', t', h1 | h1, h2⟩
      · cases h1; exact .inl h2
      · exact .inr ⟨f', a', t', h1, h2⟩

theorem DiEdges.mem_edgeList {n : N} {x : (N × N) × Edge S} : ∀ es : DiEdges N S D,
    x ∈ es.edgeList n ↔ ∃ f a t, (f, a, t) ∈ es.toList ∧
      (x = (if f then (n, t.name) else (t.name, n), a) ∨ x ∈ t.edgeList)
  | .nil => by simp [DiEdges.edgeList, DiEdges.toList]
  | .cons f a t r => by
    simp only [DiEdges.edgeList, DiEdges.toList, List.mem_append, List.mem_cons, DiEdges.mem_edgeList r]
    constructor
    · rintro (h | h | ⟨f', a', t', h1, h2⟩)
      · exact ⟨f, a, t, .inl rfl, .inl h⟩
      · exact ⟨f, a, t, .inl rfl, .inr h⟩
      · exact ⟨f', a', t', .inr h1, h2⟩
    · rintro ⟨f', a', t', h1 | h1, h2⟩
      · cases h1
        rcases h2 with h2 | h2
        · exact .inl h2
        · exact .inr (.inl h2)
      · exact .inr (.inr ⟨f', a', t', h1, h2⟩)

theorem update_append {K V : Type} [DecidableEq K] (d a b : List (K × V)) :
    Dict.update d (a ++ b) = Dict.update (Dict.update d a) b := by
  simp [Dict.update, List.foldl_append]

mutual
theorem DiNode.build_edges : ∀ (t : DiNode N S D) (g : List (N × List (N × D)) × List ((N × N) × Edge S)),
    (t.build g).2 = Dict.update g.2 t.edgeList
  | .mk n d es, g => by
    simp only [DiNode.build, DiNode.edgeList]
    exact es.build_edges n _
theorem DiEdges.build_edges : ∀ (es : DiEdges N S D) (n : N) (g : List (N × List (N × D)) × List ((N × N) × Edge S)),
    (es.build n g).2 = Dict.update g.2 (es.edgeList n)
  | .nil, n, g => by simp [DiEdges.build, DiEdges.edgeList, Dict.update]
  | .cons f a t r, n, g => by
    simp only [DiEdges.build, DiEdges.edgeList]
    rw [r.build_edges n, t.build_edges]
    have : ∀ (d : List ((N × N) × Edge S)) x l, Dict.update d (x :: l) = Dict.update (Dict.set d x.1 x.2) l :=
      fun _ _ _ => rfl
    rw [this, update_append]
    cases f <;> rfl
end

theorem get?_touch {ns : List (N × List (N × D))} {x y : N} (h : y ≠ x) : Dict.get? (touch ns x) y = Dict.get? ns y := by
  unfold touch
  split
  · rfl
  · rw [Dict.get?_append]
    simp [Dict.get?, Ne.symm h]

theorem nodup_touch {ns : List (N × List (N × D))} {x : N} (h : (Dict.keys ns).Nodup) : (Dict.keys (touch ns x)).Nodup := by
  unfold touch
  split
  · exact h
  · rename_i hx
    rw [Dict.keys_append]
    exact List.Nodup.append h (by simp) (List.disjoint_left.2 fun y hy hy' => by simp at hy'; exact hx (hy' ▸ hy))

theorem head_touch {ns : List (N × List (N × D))} {x r : N} (h : (Dict.keys ns).head? = some r) :
    (Dict.keys (touch ns x)).head? = some r := by
  unfold touch
  split
  · exact h
  · rw [Dict.keys_append]
    cases hk : Dict.keys ns with
    | nil => rw [hk] at h; cases h
    | cons a l => rw [hk] at h; exact h

theorem touch_of_mem {ns : List (N × List (N × D))} {x : N} (h : x ∈ Dict.keys ns) : touch ns x = ns := if_pos h

theorem head_set {ns : List (N × List (N × D))} {x r : N} {d : List (N × D)} (h : (Dict.keys ns).head? = some r) :
    (Dict.keys (Dict.set ns x d)).head? = some r := by
  by_cases hx : x ∈ Dict.keys ns
  · rw [Dict.keys_set_of_mem hx]; exact h
  · rw [Dict.set_of_not_mem hx, Dict.keys_append]
    cases hk : Dict.keys ns with
    | nil => rw [hk] at h; cases h
    | cons a l => rw [hk] at h; exact h

/-- what adding a part of the graph does to the nodes -/
structure Added (M : List (N × List (N × D))) (l : List (N × List (N × D))) (ns ns' : List (N × List (N × D))) : Prop where
  nodup : (Dict.keys ns).Nodup → (Dict.keys ns').Nodup
  new : ∀ x d, (x, d) ∈ l → Dict.get? ns' x = some d
  old : ∀ x, x ∉ Dict.keys l → Dict.get? ns' x = Dict.get? ns x
  head : ∀ r, (Dict.keys ns).head? = some r → (Dict.keys ns').head? = some r

theorem mem_keys_of_get? {ns ns' : List (N × List (N × D))} {x : N} (h : Dict.get? ns' x = Dict.get? ns x) :
    x ∈ Dict.keys ns' ↔ x ∈ Dict.keys ns := by
  rw [← Dict.get?_isSome, ← Dict.get?_isSome, h]

theorem DiNode.name_mem (t : DiNode N S D) : t.name ∈ Dict.keys t.nodeList := by
  cases t; simp [DiNode.name, DiNode.nodeList]

mutual
theorem DiNode.build_nodes {M : List (N × List (N × D))} (hM : (Dict.keys M).Nodup) : ∀ (t : DiNode N S D)
    (g : List (N × List (N × D)) × List ((N × N) × Edge S)), (∀ x ∈ t.nodeList, x ∈ M) →
    Added M t.nodeList g.1 (t.build g).1
  | .mk n d es, g, h => by
    simp only [DiNode.build, DiNode.nodeList] at h ⊢
    have hA := es.build_nodes hM n (Dict.set g.1 n d, g.2) (Dict.mem_keys_set.2 (.inr rfl)) fun x hx => h x (List.mem_cons_of_mem _ hx)
    refine ⟨fun hn => hA.nodup (Dict.nodup_keys_set hn), fun x d' hx => ?_, fun x hx => ?_, fun r hr => hA.head r (head_set hr)⟩
    · by_cases hk : x ∈ Dict.keys es.nodeList
      · obtain ⟨d'', hd''⟩ := Dict.mem_keys_iff.1 hk
        have e1 := Dict.get?_of_mem hM (h _ (List.mem_cons_of_mem _ hd''))
        have e2 := Dict.get?_of_mem hM (h _ hx)
        rw [e1] at e2
        cases e2
        exact hA.new _ _ hd''
      · rcases List.mem_cons.1 hx with hx | hx
        · cases hx
          rw [hA.old _ hk, Dict.get?_set, if_pos rfl]
        · exact absurd (Dict.mem_keys_of_mem hx) hk
    · rw [Dict.keys_cons, List.mem_cons, not_or] at hx
      rw [hA.old _ hx.2, Dict.get?_set, if_neg hx.1]
theorem DiEdges.build_nodes {M : List (N × List (N × D))} (hM : (Dict.keys M).Nodup) : ∀ (es : DiEdges N S D) (n : N)
    (g : List (N × List (N × D)) × List ((N × N) × Edge S)), n ∈ Dict.keys g.1 → (∀ x ∈ es.nodeList, x ∈ M) →
    Added M es.nodeList g.1 (es.build n g).1
  | .nil, n, g, _, _ => by
    simp only [DiEdges.build, DiEdges.nodeList]
    exact ⟨id, by simp, fun _ _ => rfl, fun _ => id⟩
  | .cons f a t r, n, g, hn, h => by
    simp only [DiEdges.build, DiEdges.nodeList] at h ⊢
    generalize hg' : (if f then addEdgeTo n t.name a g else addEdgeTo t.name n a g) = g'
    have hg1 : g'.1 = touch g.1 t.name := by
      rw [← hg']
      cases f
      · show touch (touch g.1 t.name) n = _
        apply touch_of_mem
        unfold touch; split
        · exact hn
        · rw [Dict.keys_append]; exact List.mem_append_left _ hn
      · show touch (touch g.1 n) t.name = _
        rw [touch_of_mem hn]
    have hA := t.build_nodes hM g' fun x hx => h x (List.mem_append_left _ hx)
    have hn' : n ∈ Dict.keys (t.build g').1 := by
      by_cases hk : n ∈ Dict.keys t.nodeList
      · obtain ⟨d, hd⟩ := Dict.mem_keys_iff.1 hk
        exact Dict.get?_isSome.1 ⟨_, hA.new _ _ hd⟩
      · rw [mem_keys_of_get? (hA.old n hk), hg1]
        unfold touch; split
        · exact hn
        · rw [Dict.keys_append]; exact List.mem_append_left _ hn
    have hB := r.build_nodes hM n (t.build g') hn' fun x hx => h x (List.mem_append_right _ hx)
    refine ⟨fun hk => hB.nodup (hA.nodup (by rw [hg1]; exact nodup_touch hk)), fun x d hx => ?_, fun x hx => ?_,
      fun r' hr => hB.head r' (hA.head r' (by rw [hg1]; exact head_touch hr))⟩
    · by_cases hk : x ∈ Dict.keys r.nodeList
      · obtain ⟨d'', hd''⟩ := Dict.mem_keys_iff.1 hk
        have e1 := Dict.get?_of_mem hM (h _ (List.mem_append_right _ hd''))
        have e2 := Dict.get?_of_mem hM (h _ hx)
        rw [e1] at e2
        cases e2
        exact hB.new _ _ hd''
      · rcases List.mem_append.1 hx with hx | hx
        · rw [hB.old _ hk]; exact hA.new _ _ hx
        · exact absurd (Dict.mem_keys_of_mem hx) hk
    · rw [Dict.keys_append, List.mem_append, not_or] at hx
      rw [hB.old _ hx.2, hA.old _ hx.1, hg1, get?_touch]
      rintro rfl
      exact hx.1 t.name_mem
end

/-! ### Dictionaries filled from a part of another one -/

theorem mem_update_part {K V : Type} [DecidableEq K] {M : List (K × V)} (hM : (Dict.keys M).Nodup) :
    ∀ (l d : List (K × V)), (Dict.keys d).Nodup → (∀ x ∈ d, x ∈ M) → (∀ x ∈ l, x ∈ M) →
    (Dict.keys (Dict.update d l)).Nodup ∧ ∀ x, x ∈ Dict.update d l ↔ x ∈ d ∨ x ∈ l
  | [], d, hd, _, _ => ⟨hd, fun x => by simp [Dict.update]⟩
  | (k, v) :: t, d, hd, h1, h2 => by
    have e : Dict.update d ((k, v) :: t) = Dict.update (Dict.set d k v) t := rfl
    rw [e]
    have hs : ∀ x : K × V, x ∈ Dict.set d k v ↔ x ∈ d ∨ x = (k, v) := by
      rintro ⟨k', v'⟩
      rw [Dict.mem_set hd]
      constructor
      · rintro (⟨rfl, rfl⟩ | ⟨_, h⟩)
        · exact .inr rfl
        · exact .inl h
      · rintro (h | h)
        · by_cases hk : k' = k
          · subst hk
            have e1 := Dict.get?_of_mem hM (h1 _ h)
            have e2 := Dict.get?_of_mem hM (h2 _ (List.mem_cons_self ..))
            rw [e1] at e2; cases e2
            exact .inl ⟨rfl, rfl⟩
          · exact .inr ⟨hk, h⟩
        · cases h; exact .inl ⟨rfl, rfl⟩
    obtain ⟨i1, i2⟩ := mem_update_part hM t (Dict.set d k v) (Dict.nodup_keys_set hd)
      (fun x hx => by
        rcases (hs x).1 hx with h | h
        · exact h1 _ h
        · rw [h]; exact h2 _ (List.mem_cons_self ..)) fun x hx => h2 x (List.mem_cons_of_mem _ hx)
    refine ⟨i1, fun x => ?_⟩
    rw [i2, hs, List.mem_cons, or_assoc]

/-- the missing directions are exactly those of the manager -/
theorem addReverse_part [LcsLike S] {M : List ((N × N) × Edge S)} (hM : (Dict.keys M).Nodup) :
    ∀ (l cur : List ((N × N) × Edge S)), (Dict.keys cur).Nodup → (∀ x ∈ cur, x ∈ M) →
    (∀ a b e, ((a, b), e) ∈ l → ∃ s, e.transformation = some s ∧ LcsLike.isSeries s = false ∧
      ((b, a), ⟨false, some (LcsLike.invert s)⟩) ∈ M) →
    ∃ r, addReverse l cur = .ok r ∧ (Dict.keys r).Nodup ∧
      ∀ x, x ∈ r ↔ x ∈ cur ∨ ∃ a b e s, ((a, b), e) ∈ l ∧ e.transformation = some s ∧
        x = ((b, a), ⟨false, some (LcsLike.invert s)⟩)
  | [], cur, hc, _, _ => ⟨cur, rfl, hc, fun x => by simp⟩
  | ((a, b), e) :: t, cur, hc, h1, h2 => by
    obtain ⟨s, hs, hser, hmem⟩ := h2 a b e (List.mem_cons_self ..)
    have ht : ∀ a b e, ((a, b), e) ∈ t → ∃ s, e.transformation = some s ∧ LcsLike.isSeries s = false ∧
      ((b, a), ⟨false, some (LcsLike.invert s)⟩) ∈ M := fun a b e h => h2 a b e (List.mem_cons_of_mem _ h)
    by_cases hk : (b, a) ∈ Dict.keys cur
    · obtain ⟨r, hr, hn, hx⟩ := addReverse_part hM t cur hc h1 ht
      refine ⟨r, by rw [addReverse, if_pos hk]; exact hr, hn, fun x => ?_⟩
      rw [hx]
      constructor
      · rintro (h | ⟨a', b', e', s', h, h', h''⟩)
        · exact .inl h
        · exact .inr ⟨a', b', e', s', List.mem_cons_of_mem _ h, h', h''⟩
      · rintro (h | ⟨a', b', e', s', h, h', h''⟩)
        · exact .inl h
        · rcases List.mem_cons.1 h with h | h
          · cases h
            rw [hs] at h'; cases h'
            obtain ⟨v, hv⟩ := Dict.mem_keys_iff.1 hk
            have e1 := Dict.get?_of_mem hM (h1 _ hv)
            have e2 := Dict.get?_of_mem hM hmem
            rw [e1] at e2; cases e2
            exact .inl (h'' ▸ hv)
          · exact .inr ⟨a', b', e', s', h, h', h''⟩
    · have hmc : ∀ x, x ∈ Dict.set cur (b, a) ⟨false, some (LcsLike.invert s)⟩ ↔
          x ∈ cur ∨ x = ((b, a), (⟨false, some (LcsLike.invert s)⟩ : Edge S)) := by
        intro x
        rw [Dict.set_of_not_mem hk]; simp
      obtain ⟨r, hr, hn, hx⟩ := addReverse_part hM t (Dict.set cur (b, a) ⟨false, some (LcsLike.invert s)⟩)
        (Dict.nodup_keys_set hc) (fun x hx => by
          rcases (hmc x).1 hx with h | h
          · exact h1 _ h
          · rw [h]; exact hmem) ht
      refine ⟨r, ?_, hn, fun x => ?_⟩
      · rw [addReverse, if_neg hk, hs, invertOf, if_neg (by rw [hser]; simp)]
        exact hr
      · rw [hx, hmc]
        constructor
        · rintro ((h | h) | ⟨a', b', e', s', h, h', h''⟩)
          · exact .inl h
          · exact .inr ⟨a, b, e, s, List.mem_cons_self .., hs, h⟩
          · exact .inr ⟨a', b', e', s', List.mem_cons_of_mem _ h, h', h''⟩
        · rintro (h | ⟨a', b', e', s', h, h', h''⟩)
          · exact .inl (.inl h)
          · rcases List.mem_cons.1 h with h | h
            · cases h
              rw [hs] at h'; cases h'
              exact .inl (.inr h'')
            · exact .inr ⟨a', b', e', s', h, h', h''⟩

end Weldx.Csm
