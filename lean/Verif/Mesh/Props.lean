import Verif.Mesh.Model
import Mathlib.Tactic.Linarith

/-!
# The triangulation is a closed surface (C43)
-/

namespace Weldx.Mesh

/-! ### specification -/

/-- the directed edges of a triangle -/
def Tri.edges (t : Tri) : List (Nat × Nat) := [(t.a, t.b), (t.b, t.c), (t.c, t.a)]

def edges (l : List Tri) : List (Nat × Nat) := l.flatMap Tri.edges

/-- A closed, consistently oriented surface on the points `lo ≤ i < hi`: no directed edge belongs to two triangles, and
the opposite of each edge belongs to a triangle too. -/
structure ClosedSurface (l : List Tri) (lo hi : Nat) : Prop where
  once : (edges l).Nodup
  opposite : ∀ a b, (a, b) ∈ edges l → (b, a) ∈ edges l
  proper : ∀ a b, (a, b) ∈ edges l → a ≠ b
  range : ∀ a b, (a, b) ∈ edges l → (lo ≤ a ∧ a < hi) ∧ lo ≤ b ∧ b < hi

/-! ### points as pairs -/

/-- point `i` of profile `j` -/
abbrev P := Nat × Nat

def code (n off : Nat) (p : P) : Nat := p.2 + p.1 * n + off

theorem code_inj {n off : Nat} {p q : P} (hp : p.2 < n) (hq : q.2 < n) (h : code n off p = code n off q) : p = q := by
  obtain ⟨j, i⟩ := p
  obtain ⟨j', i'⟩ := q
  simp only [code] at *
  have h' : i + j * n = i' + j' * n := by omega
  have hn : 0 < n := by omega
  have h1 : j = j' := by
    have a : (i + j * n) / n = j := by rw [Nat.add_mul_div_right _ _ hn, Nat.div_eq_of_lt hp]; omega
    have b : (i' + j' * n) / n = j' := by rw [Nat.add_mul_div_right _ _ hn, Nat.div_eq_of_lt hq]; omega
    rw [← a, h', b]
  subst h1
  have : i = i' := by omega
  rw [this]

/-- next point of a profile -/
def next (n i : Nat) : Nat := if i + 1 = n then 0 else i + 1

theorem mod_next {n i : Nat} (h : i < n) : (i + 1) % n = next n i := by
  unfold next
  split
  · rename_i h'; rw [h', Nat.mod_self]
  · exact Nat.mod_eq_of_lt (by omega)

abbrev E := P × P

/-- edges of the two triangles at point `i` of profile `j`; counter-clockwise -/
def sideEdges (n : Nat) (x : Nat × Nat) : List E :=
  let j := x.1
  let i := x.2
  [((j, i), (j, next n i)), ((j, next n i), (j + 1, i)), ((j + 1, i), (j, i)),
   ((j, next n i), (j + 1, next n i)), ((j + 1, next n i), (j + 1, i)), ((j + 1, i), (j, next n i))]

/-- triangle `t` of a front -/
def frontTri (n t : Nat) : Nat × Nat × Nat :=
  if t % 2 = 0 then (t / 2, t / 2 + 1, n - 1 - t / 2) else ((t + 1) / 2, n - 1 - (t + 1) / 2, n - (t + 1) / 2)

/-- edges of triangle `t` of the front at profile `j`, clockwise -/
def frontEdges (n j t : Nat) : List E :=
  [((j, (frontTri n t).1), (j, (frontTri n t).2.1)), ((j, (frontTri n t).2.1), (j, (frontTri n t).2.2)),
   ((j, (frontTri n t).2.2), (j, (frontTri n t).1))]

def swapE (e : E) : E := (e.2, e.1)

/-- the edges of all sides -/
def allSides (m n : Nat) : List E := (List.range (m - 1)).flatMap fun j => (List.range n).flatMap fun i => sideEdges n (j, i)

/-- the edges of a front -/
def allFront (n j : Nat) : List E := (List.range (n - 2)).flatMap (frontEdges n j)

/-- all edges for counter-clockwise profiles -/
def allEdges (m n : Nat) : List E := allSides m n ++ ((allFront n 0).map swapE ++ allFront n (m - 1))

theorem mem_side {n m : Nat} {e : E} : e ∈ allSides m n ↔ ∃ j i, j + 1 < m ∧ i < n ∧ e ∈ sideEdges n (j, i) := by
  simp only [allSides, List.mem_flatMap, List.mem_range]
  constructor
  · rintro ⟨j, h1, i, h2, h3⟩; exact ⟨j, i, by omega, h2, h3⟩
  · rintro ⟨j, i, h1, h2, h3⟩; exact ⟨j, by omega, i, h2, h3⟩

theorem mem_front {n j : Nat} {e : E} : e ∈ allFront n j ↔ ∃ t, t + 2 < n ∧ e ∈ frontEdges n j t := by
  simp only [allFront, List.mem_flatMap, List.mem_range]
  constructor
  · rintro ⟨t, h1, h2⟩; exact ⟨t, by omega, h2⟩
  · rintro ⟨t, h1, h2⟩; exact ⟨t, by omega, h2⟩

theorem mem_frontEdges {n j t : Nat} {e : E} (h : e ∈ frontEdges n j t) : ∃ u v, e = ((j, u), (j, v)) := by
  simp only [frontEdges, List.mem_cons, List.not_mem_nil, or_false] at h
  rcases h with rfl | rfl | rfl <;> exact ⟨_, _, rfl⟩

/-- which edges belong to a front: those of the contour, and both directions of the inner edges -/
theorem front_iff {n : Nat} (hn : 3 ≤ n) (j u v : Nat) : ((j, u), (j, v)) ∈ allFront n j ↔
      u < n ∧ v < n ∧ (v = next n u ∨ (u ≠ v ∧ v ≠ next n u ∧ u ≠ next n v ∧ (u + v = n ∨ u + v + 1 = n))) := by
  rw [mem_front]
  constructor
  · rintro ⟨t, ht, h⟩
    unfold frontEdges frontTri at h
    unfold next
    split at h <;> simp only [List.mem_cons, Prod.mk.injEq, List.not_mem_nil, or_false, true_and] at h <;>
      rcases h with ⟨rfl, rfl⟩ | ⟨rfl, rfl⟩ | ⟨rfl, rfl⟩ <;> (repeat' split) <;> omega
  · rintro ⟨hu, hv, h⟩
    have key : ∀ t, t + 2 < n → ((u = (frontTri n t).1 ∧ v = (frontTri n t).2.1) ∨
        (u = (frontTri n t).2.1 ∧ v = (frontTri n t).2.2) ∨ (u = (frontTri n t).2.2 ∧ v = (frontTri n t).1)) →
        ∃ t, t + 2 < n ∧ ((j, u), (j, v)) ∈ frontEdges n j t := by
      intro t ht h
      refine ⟨t, ht, ?_⟩
      simp only [frontEdges, List.mem_cons, Prod.mk.injEq, true_and, List.not_mem_nil, or_false]
      exact h
    have pick : ∀ t, t + 2 < n → (t % 2 = 0 → (u = t / 2 ∧ v = t / 2 + 1) ∨ (u = t / 2 + 1 ∧ v = n - 1 - t / 2) ∨
        (u = n - 1 - t / 2 ∧ v = t / 2)) → (t % 2 = 1 → (u = (t + 1) / 2 ∧ v = n - 1 - (t + 1) / 2) ∨
        (u = n - 1 - (t + 1) / 2 ∧ v = n - (t + 1) / 2) ∨ (u = n - (t + 1) / 2 ∧ v = (t + 1) / 2)) →
        ∃ t, t + 2 < n ∧ ((j, u), (j, v)) ∈ frontEdges n j t := by
      intro t ht h0 h1
      apply key t ht
      unfold frontTri
      split
      · exact h0 (by assumption)
      · exact h1 (by omega)
    have adj : v = next n u ↔ (u + 1 = n ∧ v = 0) ∨ v = u + 1 ∧ u + 1 ≠ n := by unfold next; split <;> omega
    have adj' : u = next n v ↔ (v + 1 = n ∧ u = 0) ∨ u = v + 1 ∧ v + 1 ≠ n := by unfold next; split <;> omega
    simp only [ne_eq, adj, adj'] at h
    rcases h with (⟨h1, h2⟩ | ⟨h1, h2⟩) | ⟨h1, h2, h3, h4⟩
    · exact pick 0 (by omega) (by omega) (by omega)
    · by_cases c1 : 2 * u + 2 < n
      · exact pick (2 * u) (by omega) (by omega) (by omega)
      · by_cases c2 : n ≤ 2 * u
        · exact pick (2 * n - 3 - 2 * u) (by omega) (by omega) (by omega)
        · exact pick (n - 3) (by omega) (by omega) (by omega)
    · rcases h4 with h4 | h4
      · by_cases c : u < v
        · exact pick (2 * u - 2) (by omega) (by omega) (by omega)
        · exact pick (2 * v - 1) (by omega) (by omega) (by omega)
      · by_cases c : u < v
        · exact pick (2 * u - 1) (by omega) (by omega) (by omega)
        · exact pick (2 * v) (by omega) (by omega) (by omega)

/-! ### every edge once -/

theorem front_nodup {n : Nat} (hn : 3 ≤ n) (j : Nat) : (allFront n j).Nodup := by
  unfold allFront
  rw [List.nodup_flatMap]
  constructor
  · intro t ht
    rw [List.mem_range] at ht
    unfold frontEdges frontTri
    split <;> simp only [List.nodup_cons, List.mem_cons, Prod.mk.injEq, List.not_mem_nil, or_false, true_and,
      not_false_eq_true, List.nodup_nil, and_true] <;> omega
  · have hnd := List.nodup_range (n := n - 2)
    rw [List.nodup_iff_pairwise_ne] at hnd
    refine hnd.imp_of_mem ?_
    intro s t hs ht hst
    rw [List.mem_range] at hs ht
    intro e he he'
    unfold frontEdges frontTri at he he'
    split at he <;> split at he' <;> simp only [List.mem_cons, List.not_mem_nil, or_false] at he he' <;>
      rcases he with rfl | rfl | rfl <;> simp only [Prod.mk.injEq, true_and] at he' <;> omega

theorem side_nodup {m n : Nat} (hn : 3 ≤ n) : (allSides m n).Nodup := by
  have nx : ∀ i, (i + 1 = n ∧ next n i = 0) ∨ (i + 1 ≠ n ∧ next n i = i + 1) := by
    intro i; unfold next; split <;> omega
  unfold allSides
  rw [List.nodup_flatMap]
  constructor
  · intro j _
    rw [List.nodup_flatMap]
    constructor
    · intro i hi
      rw [List.mem_range] at hi
      have := nx i
      simp only [sideEdges, List.nodup_cons, List.mem_cons, Prod.mk.injEq, List.not_mem_nil, or_false, true_and,
        not_false_eq_true, List.nodup_nil, and_true]
      omega
    · have hnd := List.nodup_range (n := n)
      rw [List.nodup_iff_pairwise_ne] at hnd
      refine hnd.imp_of_mem ?_
      intro s t hs ht hst
      rw [List.mem_range] at hs ht
      have := nx s
      have := nx t
      intro e he he'
      simp only [sideEdges, List.mem_cons, List.not_mem_nil, or_false] at he he'
      rcases he with rfl | rfl | rfl | rfl | rfl | rfl <;> simp only [Prod.mk.injEq, true_and] at he' <;> omega
  · have hnd := List.nodup_range (n := m - 1)
    rw [List.nodup_iff_pairwise_ne] at hnd
    refine hnd.imp_of_mem ?_
    intro s t hs ht hst
    intro e he he'
    simp only [List.mem_flatMap, List.mem_range] at he he'
    obtain ⟨i, hi, he⟩ := he
    obtain ⟨k, hk, he'⟩ := he'
    have := nx i
    have := nx k
    simp only [sideEdges, List.mem_cons, List.not_mem_nil, or_false] at he he'
    rcases he with rfl | rfl | rfl | rfl | rfl | rfl <;> simp only [Prod.mk.injEq] at he' <;> omega

theorem swapE_inj : Function.Injective swapE := by
  rintro ⟨a, b⟩ ⟨c, d⟩ h
  simp only [swapE, Prod.mk.injEq] at h
  rw [h.1, h.2]

theorem mem_swap {l : List E} {e : E} : e ∈ l.map swapE ↔ swapE e ∈ l := by
  rw [List.mem_map]
  constructor
  · rintro ⟨x, hx, rfl⟩; exact hx
  · intro h; exact ⟨swapE e, h, rfl⟩

theorem all_nodup {m n : Nat} (hm : 2 ≤ m) (hn : 3 ≤ n) : (allEdges m n).Nodup := by
  have nx : ∀ i, (i + 1 = n ∧ next n i = 0) ∨ (i + 1 ≠ n ∧ next n i = i + 1) := by
    intro i; unfold next; split <;> omega
  unfold allEdges
  rw [List.nodup_append, List.nodup_append]
  refine ⟨side_nodup hn, ⟨(front_nodup hn 0).map swapE_inj, front_nodup hn (m - 1), ?_⟩, ?_⟩
  · rintro e he e' he' rfl
    rw [mem_swap, mem_front] at he
    rw [mem_front] at he'
    obtain ⟨_, _, h⟩ := he
    obtain ⟨_, _, h'⟩ := he'
    obtain ⟨u, v, h⟩ := mem_frontEdges h
    obtain ⟨u', v', h'⟩ := mem_frontEdges h'
    subst h'
    simp only [swapE, Prod.mk.injEq] at h
    omega
  · rintro e he e' he' rfl
    rw [mem_side] at he
    obtain ⟨j, i, hj, hi, he⟩ := he
    have := nx i
    rw [List.mem_append, mem_swap] at he'
    rcases he' with he' | he'
    · obtain ⟨t, ht, h⟩ := mem_front.1 he'
      obtain ⟨u, v, h⟩ := mem_frontEdges h
      have h2 := (front_iff hn 0 u v).1 (h ▸ he')
      have := nx u
      have := nx v
      simp only [sideEdges, List.mem_cons, List.not_mem_nil, or_false] at he
      rcases he with rfl | rfl | rfl | rfl | rfl | rfl <;> simp only [swapE, Prod.mk.injEq] at h <;> omega
    · obtain ⟨t, ht, h⟩ := mem_front.1 he'
      obtain ⟨u, v, h⟩ := mem_frontEdges h
      have h2 := (front_iff hn (m - 1) u v).1 (h ▸ he')
      have := nx u
      have := nx v
      simp only [sideEdges, List.mem_cons, List.not_mem_nil, or_false] at he
      rcases he with rfl | rfl | rfl | rfl | rfl | rfl <;> simp only [Prod.mk.injEq] at h <;> omega

/-! ### opposite edges -/

theorem next_lt {n i : Nat} (hn : 0 < n) (hi : i < n) : next n i < n := by unfold next; split <;> omega

theorem all_opposite {m n : Nat} (hm : 2 ≤ m) (hn : 3 ≤ n) {e : E} (he : e ∈ allEdges m n) : swapE e ∈ allEdges m n := by
  have nx : ∀ i, (i + 1 = n ∧ next n i = 0) ∨ (i + 1 ≠ n ∧ next n i = i + 1) := by
    intro i; unfold next; split <;> omega
  unfold allEdges at he ⊢
  rw [List.mem_append, List.mem_append, mem_swap] at he ⊢
  rcases he with he | he | he
  · obtain ⟨j, i, hj, hi, he⟩ := mem_side.1 he
    have hi' := next_lt (by omega) hi
    simp only [sideEdges, List.mem_cons, List.not_mem_nil, or_false] at he
    rcases he with rfl | rfl | rfl | rfl | rfl | rfl
    · by_cases h0 : j = 0
      · subst h0
        refine .inr (.inl ?_)
        simp only [swapE]
        rw [front_iff hn]
        exact ⟨hi, hi', .inl rfl⟩
      · refine .inl (mem_side.2 ⟨j - 1, i, by omega, hi, ?_⟩)
        have : j - 1 + 1 = j := by omega
        simp [sideEdges, swapE, this]
    · exact .inl (mem_side.2 ⟨j, i, hj, hi, by simp [sideEdges, swapE]⟩)
    · -- the neighbour before
      have hp : next n (if i = 0 then n - 1 else i - 1) = i := by unfold next; (repeat' split) <;> omega
      refine .inl (mem_side.2 ⟨j, if i = 0 then n - 1 else i - 1, hj, by split <;> omega, ?_⟩)
      simp [sideEdges, swapE, hp]
    · refine .inl (mem_side.2 ⟨j, next n i, hj, hi', by simp [sideEdges, swapE]⟩)
    · by_cases h0 : j + 2 = m
      · refine .inr (.inr ?_)
        simp only [swapE]
        have : m - 1 = j + 1 := by omega
        rw [this, front_iff hn]
        exact ⟨hi, hi', .inl rfl⟩
      · exact .inl (mem_side.2 ⟨j + 1, i, by omega, hi, by simp [sideEdges, swapE]⟩)
    · exact .inl (mem_side.2 ⟨j, i, hj, hi, by simp [sideEdges, swapE]⟩)
  · obtain ⟨t, ht, h⟩ := mem_front.1 he
    obtain ⟨u, v, h⟩ := mem_frontEdges h
    rw [h] at he
    have hs : swapE (swapE e) = e := rfl
    rw [front_iff hn] at he
    obtain ⟨hu, hv, h3⟩ := he
    rcases h3 with h3 | ⟨h3, h4, h5, h6⟩
    · refine .inl (mem_side.2 ⟨0, u, by omega, hu, ?_⟩)
      rw [h, h3]
      simp [sideEdges]
    · refine .inr (.inl ?_)
      have : swapE (swapE e) = ((0, v), (0, u)) := by rw [h]; rfl
      rw [this, front_iff hn]
      exact ⟨hv, hu, .inr ⟨Ne.symm h3, h5, h4, by omega⟩⟩
  · obtain ⟨t, ht, h⟩ := mem_front.1 he
    obtain ⟨u, v, h⟩ := mem_frontEdges h
    rw [h, front_iff hn] at he
    obtain ⟨hu, hv, h3⟩ := he
    rcases h3 with h3 | ⟨h3, h4, h5, h6⟩
    · refine .inl (mem_side.2 ⟨m - 2, u, by omega, hu, ?_⟩)
      have : m - 2 + 1 = m - 1 := by omega
      rw [h, h3]
      simp [sideEdges, swapE, this]
    · refine .inr (.inr ?_)
      have : swapE e = ((m - 1, v), (m - 1, u)) := by rw [h]; rfl
      rw [this, front_iff hn]
      exact ⟨hv, hu, .inr ⟨Ne.symm h3, h5, h4, by omega⟩⟩

theorem all_range {m n : Nat} (hm : 2 ≤ m) (hn : 3 ≤ n) {e : E} (he : e ∈ allEdges m n) :
    e.1.1 < m ∧ e.1.2 < n ∧ e.2.1 < m ∧ e.2.2 < n ∧ e.1 ≠ e.2 := by
  have nx : ∀ i, (i + 1 = n ∧ next n i = 0) ∨ (i + 1 ≠ n ∧ next n i = i + 1) := by
    intro i; unfold next; split <;> omega
  unfold allEdges at he
  rw [List.mem_append, List.mem_append, mem_swap] at he
  rcases he with he | he | he
  · obtain ⟨j, i, hj, hi, he⟩ := mem_side.1 he
    have := nx i
    simp only [sideEdges, List.mem_cons, List.not_mem_nil, or_false] at he
    rcases he with rfl | rfl | rfl | rfl | rfl | rfl <;> simp only [ne_eq, Prod.mk.injEq] <;> omega
  · obtain ⟨t, ht, h⟩ := mem_front.1 he
    obtain ⟨u, v, h⟩ := mem_frontEdges h
    have h2 := (front_iff hn 0 u v).1 (h ▸ he)
    have h' : e = ((0, v), (0, u)) := by rw [← show swapE (swapE e) = e from rfl, h]; rfl
    have := nx u
    rw [h']
    simp only [ne_eq, Prod.mk.injEq]
    omega
  · obtain ⟨t, ht, h⟩ := mem_front.1 he
    obtain ⟨u, v, h⟩ := mem_frontEdges h
    have h2 := (front_iff hn (m - 1) u v).1 (h ▸ he)
    have := nx u
    rw [h]
    simp only [ne_eq, Prod.mk.injEq]
    omega

/-! ### from the model to pairs -/

def codeE (n off : Nat) (e : E) : Nat × Nat := (code n off e.1, code n off e.2)

/-- opposite direction of numbers -/
def swapN (e : Nat × Nat) : Nat × Nat := (e.2, e.1)

theorem frontLoop_eq {n : Nat} (hn : 2 ≤ n) (off : Nat) : ∀ d t, t + d = n - 2 →
    frontLoop n off ((t + 1) / 2) (t / 2) = (List.range' t d).map fun t =>
      ⟨(frontTri n t).1 + off, (frontTri n t).2.1 + off, (frontTri n t).2.2 + off⟩
  | 0, t, h => by
    unfold frontLoop
    rw [dif_neg (by omega)]; rfl
  | d + 1, t, h => by
    unfold frontLoop
    rw [dif_pos (by omega)]
    rw [List.range'_succ, List.map_cons]
    have ih := frontLoop_eq hn off d (t + 1) (by omega)
    rw [← ih]
    unfold frontTri
    by_cases ht : t % 2 = 0
    · have e1 : (t + 1) / 2 = t / 2 := by omega
      have e2 : (t + 1 + 1) / 2 = t / 2 + 1 := by omega
      simp only [e1, e2, if_true, if_pos ht]
      congr 1
      clear ih
      simp only [Tri.mk.injEq, true_and]
      exact ⟨by omega, by omega⟩
    · have e1 : (t + 1) / 2 = t / 2 + 1 := by omega
      have e2 : (t + 1 + 1) / 2 = t / 2 + 1 := by omega
      simp only [e1, e2, if_neg (show ¬ t / 2 = t / 2 + 1 by omega), if_neg ht]
      congr 1
      clear ih
      simp only [Tri.mk.injEq, true_and]
      exact ⟨by omega, by omega⟩

theorem mem_edges {l : List Tri} {e : Nat × Nat} : e ∈ edges l ↔ ∃ t ∈ l, e ∈ t.edges := by
  unfold edges; rw [List.mem_flatMap]

theorem edges_append (l l' : List Tri) : edges (l ++ l') = edges l ++ edges l' := by
  unfold edges; rw [List.flatMap_append]

/-- edges of the sides, counter-clockwise, in the same order up to permutation of the six edges -/
theorem side_edges (m n off : Nat) : edges (profileTriangles m n off false) = (allSides m n).map (codeE n off) := by
  unfold profileTriangles allSides edges
  simp only [List.map_flatMap, List.flatMap_assoc, List.flatMap_map]
  apply List.flatMap_congr
  intro j hj
  apply List.flatMap_congr
  intro i hi
  rw [List.mem_range] at hi
  simp only [baseTriangles, sideEdges, mod_next hi]
  simp [codeE, code, Tri.shift, Tri.edges, Nat.add_mul]
  omega

theorem flip_edges (t : Tri) : t.flip.edges.Perm (t.edges.map swapN) := by
  obtain ⟨a, b, c⟩ := t
  simp only [Tri.flip, Tri.edges, List.map_cons, List.map_nil, swapN]
  -- (a,c),(c,b),(b,a) and (b,a),(c,b),(a,c)
  exact (List.reverse_perm [((b, a) : Nat × Nat), (c, b), (a, c)])

theorem edges_flip (l : List Tri) : (edges (l.map Tri.flip)).Perm ((edges l).map swapN) := by
  induction l with
  | nil => exact List.Perm.refl _
  | cons t l ih =>
    have e1 : edges ((t :: l).map Tri.flip) = t.flip.edges ++ edges (l.map Tri.flip) := rfl
    have e2 : (edges (t :: l)).map swapN = t.edges.map swapN ++ (edges l).map swapN := by
      rw [← List.map_append]; rfl
    rw [e1, e2]
    exact (flip_edges t).append ih

theorem front_edges {n : Nat} (hn : 2 ≤ n) (off : Nat) : edges (frontLoop n off 0 0) = (allFront n 0).map (codeE n off) := by
  have h := frontLoop_eq hn off (n - 2) 0 (by omega)
  simp only [Nat.zero_add, Nat.reduceDiv] at h
  rw [h]
  unfold edges allFront
  rw [List.flatMap_map, List.map_flatMap, List.range_eq_range']
  apply List.flatMap_congr
  intro t _
  simp [Tri.edges, frontEdges, codeE, code]

theorem shift_edges (l : List Tri) (k : Nat) : edges (l.map fun t => t.shift k) = (edges l).map fun e => (e.1 + k, e.2 + k) := by
  unfold edges
  rw [List.flatMap_map, List.map_flatMap]
  apply List.flatMap_congr
  intro t _
  rfl

theorem back_edges {n : Nat} (hn : 2 ≤ n) (m off : Nat) :
    (edges (frontLoop n off 0 0)).map (fun e => (e.1 + (m - 1) * n, e.2 + (m - 1) * n)) = (allFront n (m - 1)).map (codeE n off) := by
  rw [front_edges hn, List.map_map]
  unfold allFront
  rw [List.map_flatMap, List.map_flatMap]
  apply List.flatMap_congr
  intro t _
  simp [frontEdges, codeE, code]
  omega

/-- counter-clockwise profiles: the edges are those of the pairs -/
theorem shape_edges_ccw {m n : Nat} (hn : 2 ≤ n) (off : Nat) :
    (edges (shapeTriangles ⟨m, n, false⟩ off true)).Perm ((allEdges m n).map (codeE n off)) := by
  simp only [shapeTriangles, if_true, frontBackTriangles, Bool.false_eq_true, if_false]
  rw [edges_append, edges_append, side_edges, shift_edges, back_edges hn]
  unfold allEdges
  rw [List.map_append, List.map_append]
  refine List.Perm.append_left _ (List.Perm.append_right _ ?_)
  refine (edges_flip _).trans ?_
  rw [front_edges hn, List.map_map, List.map_map]
  exact List.Perm.refl _

theorem shape_cw_flip (m n off : ℕ) :
    shapeTriangles ⟨m, n, true⟩ off true = (shapeTriangles ⟨m, n, false⟩ off true).map Tri.flip := by
  have hside : profileTriangles m n off true = (profileTriangles m n off false).map Tri.flip := by
    unfold profileTriangles
    simp only [List.map_flatMap]
    apply List.flatMap_congr
    intro j _
    apply List.flatMap_congr
    intro i _
    simp [baseTriangles, Tri.shift, Tri.flip]
  have hff : ∀ l : List Tri, (l.map Tri.flip).map Tri.flip = l := by
    intro l
    rw [List.map_map]
    conv_rhs => rw [← List.map_id l]
    rfl
  have hsh : ∀ (l : List Tri) (k : Nat), (l.map Tri.flip).map (fun t => t.shift k) = (l.map fun t => t.shift k).map Tri.flip := by
    intro l k
    rw [List.map_map, List.map_map]
    rfl
  simp only [shapeTriangles, if_true, frontBackTriangles, Bool.false_eq_true, if_false, List.map_append]
  rw [hside, hff, hsh]

/-- clockwise profiles: the same triangles with opposite winding -/
theorem shape_edges_cw {m n : Nat} (off : Nat) :
    (edges (shapeTriangles ⟨m, n, true⟩ off true)).Perm ((edges (shapeTriangles ⟨m, n, false⟩ off true)).map swapN) := by
  rw [shape_cw_flip]
  exact edges_flip _

theorem ClosedSurface.of_perm {l : List Tri} {lo hi : Nat} {es : List (Nat × Nat)} (hp : (edges l).Perm es) (h1 : es.Nodup)
    (h2 : ∀ a b, (a, b) ∈ es → (b, a) ∈ es) (h3 : ∀ a b, (a, b) ∈ es → a ≠ b)
    (h4 : ∀ a b, (a, b) ∈ es → (lo ≤ a ∧ a < hi) ∧ lo ≤ b ∧ b < hi) : ClosedSurface l lo hi :=
  ⟨hp.nodup_iff.2 h1, fun a b h => hp.mem_iff.2 (h2 a b (hp.mem_iff.1 h)), fun a b h => h3 a b (hp.mem_iff.1 h),
    fun a b h => h4 a b (hp.mem_iff.1 h)⟩

/-- **C43.** The triangles of a shape with at least two profiles of at least three points form a closed, consistently
oriented surface and only use the points of the shape. -/
theorem C43_shape (m n off : Nat) (cw : Bool) (hm : 2 ≤ m) (hn : 3 ≤ n) :
    ClosedSurface (shapeTriangles ⟨m, n, cw⟩ off true) off (off + m * n) := by
  have h1 : ((allEdges m n).map (codeE n off)).Nodup := by
    apply List.Nodup.map_on _ (all_nodup hm hn)
    rintro ⟨p, q⟩ he ⟨p', q'⟩ he' h
    have r := all_range hm hn he
    have r' := all_range hm hn he'
    simp only [codeE, Prod.mk.injEq] at h
    have e1 : p = p' := code_inj r.2.1 r'.2.1 h.1
    have e2 : q = q' := code_inj r.2.2.2.1 r'.2.2.2.1 h.2
    rw [e1, e2]
  have h2 : ∀ a b, (a, b) ∈ (allEdges m n).map (codeE n off) → (b, a) ∈ (allEdges m n).map (codeE n off) := by
    intro a b h
    obtain ⟨e, he, h⟩ := List.mem_map.1 h
    refine List.mem_map.2 ⟨swapE e, all_opposite hm hn he, ?_⟩
    simp only [codeE, Prod.mk.injEq] at h
    simp only [codeE, swapE, h.1, h.2]
  have h3 : ∀ a b, (a, b) ∈ (allEdges m n).map (codeE n off) → a ≠ b := by
    intro a b h
    obtain ⟨e, he, h⟩ := List.mem_map.1 h
    have r := all_range hm hn he
    simp only [codeE, Prod.mk.injEq] at h
    rintro rfl
    exact r.2.2.2.2 (code_inj r.2.1 r.2.2.2.1 (h.1.trans h.2.symm))
  have bound : ∀ p : P, p.1 < m → p.2 < n → off ≤ code n off p ∧ code n off p < off + m * n := by
    rintro ⟨j, i⟩ hj hi
    simp only [code] at *
    have : (j + 1) * n ≤ m * n := Nat.mul_le_mul_right n hj
    rw [Nat.add_mul] at this
    omega
  have h4 : ∀ a b, (a, b) ∈ (allEdges m n).map (codeE n off) → (off ≤ a ∧ a < off + m * n) ∧ off ≤ b ∧ b < off + m * n := by
    intro a b h
    obtain ⟨e, he, h⟩ := List.mem_map.1 h
    have r := all_range hm hn he
    simp only [codeE, Prod.mk.injEq] at h
    rw [← h.1, ← h.2]
    exact ⟨bound e.1 r.1 r.2.1, bound e.2 r.2.2.1 r.2.2.2.1⟩
  have hccw := ClosedSurface.of_perm (shape_edges_ccw (m := m) (show 2 ≤ n by omega) off) h1 h2 h3 h4
  cases cw with
  | false => exact hccw
  | true =>
    have hmem : ∀ a b, (a, b) ∈ (edges (shapeTriangles ⟨m, n, false⟩ off true)).map swapN ↔
        (b, a) ∈ edges (shapeTriangles ⟨m, n, false⟩ off true) := by
      intro a b
      rw [List.mem_map]
      constructor
      · rintro ⟨⟨x, y⟩, hx, he⟩
        simp only [swapN, Prod.mk.injEq] at he
        rw [← he.1, ← he.2]; exact hx
      · intro h; exact ⟨(b, a), h, rfl⟩
    refine ClosedSurface.of_perm (shape_edges_cw off) ?_ ?_ ?_ ?_
    · apply hccw.once.map
      rintro ⟨a, b⟩ ⟨c, d⟩ h
      simp only [swapN, Prod.mk.injEq] at h
      rw [h.1, h.2]
    · intro a b h
      rw [hmem] at h ⊢
      exact hccw.opposite _ _ h
    · intro a b h
      rw [hmem] at h
      exact (hccw.proper _ _ h).symm
    · intro a b h
      rw [hmem] at h
      exact (hccw.range _ _ h).symm

/-- **C43.** The triangles of all shapes of a geometry form a closed, consistently oriented surface and only use existing
points. -/
theorem C43_geometry (l : List ShapeRaster) (off : Nat) (h : ∀ s ∈ l, 2 ≤ s.numProfiles ∧ 3 ≤ s.numPoints) :
    ClosedSurface (geometryTriangles true l off) off (off + (l.map fun s => s.numProfiles * s.numPoints).sum) := by
  induction l generalizing off with
  | nil => exact ⟨List.nodup_nil, by simp [geometryTriangles, edges], by simp [geometryTriangles, edges],
      by simp [geometryTriangles, edges]⟩
  | cons s l ih =>
    obtain ⟨hm, hn⟩ := h s (by simp)
    have h1 := C43_shape s.numProfiles s.numPoints off s.cw hm hn
    have h2 := ih (off + s.numProfiles * s.numPoints) (fun s hs => h s (by simp [hs]))
    simp only [geometryTriangles, List.map_cons, List.sum_cons]
    have e : ∀ a b, (a, b) ∈ edges (shapeTriangles s off true ++ geometryTriangles true l (off + s.numProfiles * s.numPoints)) ↔
        (a, b) ∈ edges (shapeTriangles s off true) ∨ (a, b) ∈ edges (geometryTriangles true l (off + s.numProfiles * s.numPoints)) := by
      intro a b; rw [edges_append, List.mem_append]
    refine ⟨?_, ?_, ?_, ?_⟩
    · rw [edges_append, List.nodup_append]
      refine ⟨h1.once, h2.once, ?_⟩
      rintro ⟨a, b⟩ ha ⟨c, d⟩ hb he
      have r1 := h1.range _ _ ha
      have r2 := h2.range _ _ hb
      simp only [Prod.mk.injEq] at he
      omega
    · intro a b hab
      rw [e] at hab ⊢
      exact hab.imp (h1.opposite a b) (h2.opposite a b)
    · intro a b hab
      rw [e] at hab
      exact hab.elim (h1.proper a b) (h2.proper a b)
    · intro a b hab
      rw [e] at hab
      rcases hab with hab | hab
      · have := h1.range a b hab; omega
      · have := h2.range a b hab; omega

/-- **C43.** Number of triangles. -/
theorem C43_count (m n off : Nat) (cw : Bool) (hn : 2 ≤ n) :
    (shapeTriangles ⟨m, n, cw⟩ off true).length = 2 * n * (m - 1) + 2 * (n - 2) := by
  have hloop : (frontLoop n off 0 0).length = n - 2 := by
    have h := frontLoop_eq hn off (n - 2) 0 (by omega)
    simp only [Nat.zero_add, Nat.reduceDiv] at h
    rw [h]; simp
  have hb : ∀ i, (baseTriangles n cw i).length = 2 := by intro i; cases cw <;> rfl
  have hp : (profileTriangles m n off cw).length = 2 * n * (m - 1) := by
    simp [profileTriangles, List.length_flatMap, hb, Nat.mul_comm]
  have hf : (frontBackTriangles m n off cw).length = 2 * (n - 2) := by
    cases cw <;> simp [frontBackTriangles, hloop] <;> omega
  simp [shapeTriangles, hp, hf]

/-- a box: two profiles of four points -/
example : shapeTriangles ⟨2, 4, false⟩ 0 true =
    [⟨0, 1, 4⟩, ⟨1, 5, 4⟩, ⟨1, 2, 5⟩, ⟨2, 6, 5⟩, ⟨2, 3, 6⟩, ⟨3, 7, 6⟩, ⟨3, 0, 7⟩, ⟨0, 4, 7⟩,
     ⟨0, 3, 1⟩, ⟨1, 3, 2⟩, ⟨4, 5, 7⟩, ⟨5, 6, 7⟩] := by
  simp [shapeTriangles, profileTriangles, frontBackTriangles, frontLoop, baseTriangles, List.range_succ, Tri.shift, Tri.flip]

end Weldx.Mesh
