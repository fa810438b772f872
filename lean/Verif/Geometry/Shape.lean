import Verif.Geometry.Moves

/-!
# Shapes stay connected (C47), reflections (C48)
-/

namespace Weldx.Geo
open Real Matrix

/-- consecutive elements are related -/
def Linked {α : Type*} (R : α → α → Prop) (l : List α) : Prop := ∀ l₁ a b l₂, l = l₁ ++ a :: b :: l₂ → R a b

theorem linked_nil {α : Type*} {R : α → α → Prop} : Linked R [] := by
  intro l₁ a b l₂ h; simp at h

theorem linked_one {α : Type*} {R : α → α → Prop} (a : α) : Linked R [a] := by
  intro l₁ x b l₂ h
  have := congrArg List.length h
  simp at this; omega

theorem linked_cons {α : Type*} {R : α → α → Prop} {a b : α} {l : List α} :
    Linked R (a :: b :: l) ↔ R a b ∧ Linked R (b :: l) := by
  constructor
  · intro h
    exact ⟨h [] a b l rfl, fun l₁ x y l₂ he => h (a :: l₁) x y l₂ (by rw [he]; rfl)⟩
  · rintro ⟨h1, h2⟩ l₁ x y l₂ he
    cases l₁ with
    | nil => cases he; exact h1
    | cons z l₁ =>
      simp only [List.cons_append, List.cons.injEq] at he
      exact h2 l₁ x y l₂ he.2

theorem linked_append {α : Type*} {R : α → α → Prop} {l m : List α} :
    Linked R (l ++ m) ↔ Linked R l ∧ Linked R m ∧ ∀ a b, l.getLast? = some a → m.head? = some b → R a b := by
  induction l with
  | nil => simp [linked_nil]
  | cons x l ih =>
    cases l with
    | nil =>
      cases m with
      | nil => simp [linked_one, linked_nil]
      | cons y m => simp [linked_cons, linked_one]; tauto
    | cons z l =>
      rw [List.cons_append, List.cons_append, linked_cons, ← List.cons_append, ih, linked_cons]
      rw [List.getLast?_cons_cons]
      tauto

theorem linked_map {α β : Type*} {R : α → α → Prop} {S : β → β → Prop} {f : α → β} {l : List α}
    (h : ∀ a b, a ∈ l → b ∈ l → R a b → S (f a) (f b)) (hl : Linked R l) : Linked S (l.map f) := by
  induction l with
  | nil => exact linked_nil
  | cons x l ih =>
    cases l with
    | nil => exact linked_one _
    | cons y l =>
      rw [linked_cons] at hl
      simp only [List.map_cons] at ih ⊢
      rw [linked_cons]
      exact ⟨h x y (by simp) (by simp) hl.1, ih (fun a b ha hb => h a b (List.mem_cons_of_mem _ ha) (List.mem_cons_of_mem _ hb)) hl.2⟩

/-- connected up to the tolerance -/
def Close (a b : Seg) : Prop := vectorIsClose a.pointEnd b.pointStart
/-- connected -/
def Joined (a b : Seg) : Prop := a.pointEnd = b.pointStart

theorem vectorIsClose_refl (a : V) : vectorIsClose a a := by
  constructor <;> simp only [isclose, sub_self, abs_zero] <;> positivity

theorem Joined.close {a b : Seg} (h : Joined a b) : Close a b := by
  unfold Close Joined at *; rw [h]; exact vectorIsClose_refl _

theorem checkConnected_iff : ∀ l : List Seg, checkConnected l = .ok () ↔ Linked Close l
  | [] => by simp [checkConnected, linked_nil]
  | [a] => by simp [checkConnected, linked_one]
  | a :: b :: l => by
    rw [linked_cons]
    unfold checkConnected
    split
    · rename_i h; rw [checkConnected_iff (b :: l)]; exact ⟨fun h' => ⟨h, h'⟩, fun h' => h'.2⟩
    · rename_i h; constructor
      · intro h'; cases h'
      · intro h'; exact absurd h'.1 h

theorem checkConnected_cases (l : List Seg) :
    (checkConnected l = .ok () ∧ Linked Close l) ∨ (∃ e, checkConnected l = .error e) ∧ ¬ Linked Close l := by
  cases h : checkConnected l with
  | ok u => exact .inl ⟨rfl, (checkConnected_iff l).1 h⟩
  | error e => exact .inr ⟨⟨e, rfl⟩, fun h' => by rw [(checkConnected_iff l).2 h'] at h; cases h⟩

/-- the segments of a shape -/
def ShState.list (s : ShState) : List Seg := s.segs.map s.store

/-! ### C47: checks -/

/-- **C47.** A shape can be constructed exactly from segments where each starts at the point where the previous one
ends, up to the tolerance. -/
theorem C47_construct (store : ℕ → Seg) (l : List ℕ) :
    (∃ s, mkShape store l = .ok s) ↔ Linked Close (l.map store) := by
  unfold mkShape
  rcases checkConnected_cases (l.map store) with ⟨h1, h2⟩ | ⟨⟨e, h1⟩, h2⟩
  · simp only [h1, bind, Except.bind]; exact ⟨fun _ => h2, fun _ => ⟨_, rfl⟩⟩
  · simp only [h1, bind, Except.bind]
    constructor
    · rintro ⟨_, h⟩; cases h
    · exact fun h => absurd h h2

/-- **C47.** Adding segments to a connected shape: they are accepted exactly if the shape stays connected (an empty
list is only accepted for an empty shape), and a shape to which they can not be added is unchanged. -/
theorem C47_add (s : ShState) (new : List ℕ) (hs : Linked Close s.list) :
    match addSegments new s with
    | .ok _ s' => s' = { s with segs := s.segs ++ new } ∧ Linked Close s'.list
    | .err _ s' => s' = s ∧ (¬ Linked Close ((s.segs ++ new).map s.store) ∨ new = []) := by
  unfold addSegments
  rw [Py.get_bind]
  rw [List.map_append]
  cases hl : s.segs.getLast? with
  | none =>
    have he : s.segs = [] := List.getLast?_eq_none_iff.1 hl
    simp only
    rcases checkConnected_cases (new.map s.store) with ⟨h1, h2⟩ | ⟨⟨e, h1⟩, h2⟩
    · rw [h1, Py.lift_ok_bind, Py.modify_apply]
      exact ⟨rfl, by simpa [ShState.list, he] using h2⟩
    · rw [h1, Py.lift_error_bind]
      exact ⟨rfl, .inl (by simpa [he] using h2)⟩
  | some x =>
    cases new with
    | nil => exact ⟨rfl, .inr rfl⟩
    | cons y new =>
      simp only
      have hlast : (s.segs.map s.store).getLast? = some (s.store x) := by rw [List.getLast?_map, hl]; rfl
      rcases checkConnected_cases [s.store x, s.store y] with ⟨h1, h2⟩ | ⟨⟨e, h1⟩, h2⟩
      · rw [h1, Py.lift_ok_bind]
        rw [linked_cons] at h2
        rcases checkConnected_cases ((y :: new).map s.store) with ⟨h3, h4⟩ | ⟨⟨e, h3⟩, h4⟩
        · rw [h3, Py.lift_ok_bind, Py.modify_apply]
          refine ⟨rfl, ?_⟩
          simp only [ShState.list, List.map_append]
          rw [linked_append]
          refine ⟨hs, h4, ?_⟩
          intro a b ha hb
          rw [hlast] at ha; cases ha
          simp at hb; subst hb
          exact h2.1
        · rw [h3, Py.lift_error_bind]
          refine ⟨rfl, .inl ?_⟩
          rw [linked_append]; exact fun h => h4 h.2.1
      · rw [h1, Py.lift_error_bind]
        refine ⟨rfl, .inl ?_⟩
        rw [linked_append]
        intro h
        exact h2 (linked_cons.2 ⟨h.2.2 _ _ hlast (by simp), linked_one _⟩)

/-! ### loops over the segments of a shape -/

theorem translation_loop (v : V) : ∀ (l : List ℕ) (st : ℕ → Seg), l.Nodup →
    ∀ i, (l.foldl (fun st i => Function.update st i ((st i).translate v)) st) i =
      if i ∈ l then (st i).translate v else st i
  | [], st, _, i => by simp
  | j :: l, st, hn, i => by
    rw [List.nodup_cons] at hn
    rw [List.foldl_cons, translation_loop v l _ hn.2]
    by_cases h : i = j
    · subst h; simp [hn.1]
    · simp [h]

theorem transform_loop (m : M) : ∀ (l : List ℕ) (s : ShState) (f : ℕ → Seg), l.Nodup →
    (∀ i ∈ l, (s.store i).transform m = .ok () (f i)) →
    transformAll m l s = .ok () { s with store := fun i => if i ∈ l then f i else s.store i }
  | [], s, f, _, _ => by simp [transformAll]
  | j :: l, s, f, hn, hf => by
    rw [List.nodup_cons] at hn
    simp only [transformAll, hf j (by simp)]
    rw [transform_loop m l _ f hn.2]
    · congr 2
      funext i
      by_cases h : i = j
      · subst h; simp [hn.1]
      · simp [h]
    · intro i hi
      have : i ≠ j := by rintro rfl; exact hn.1 hi
      simp only [Function.update_of_ne this]
      exact hf i (by simp [hi])

/-- the distance between the end of a segment and the start of the next one is at most `ε` -/
def Gap (ε : ℝ) (a b : Seg) : Prop := len (a.pointEnd - b.pointStart) ≤ ε

theorem gap_zero {a b : Seg} : Gap 0 a b ↔ Joined a b := by
  unfold Gap Joined
  rw [← sub_eq_zero (b := b.pointStart), ← len_eq_zero]
  exact ⟨fun h => le_antisymm h (Real.sqrt_nonneg _), fun h => h.le⟩

/-- Connected shapes that consist of different objects, all as made by their constructors. Gaps between consecutive
segments are at most `ε`; shapes with `ε = 0` are exactly connected. -/
structure ShState.Good (ε : ℝ) (s : ShState) : Prop where
  nodup : s.segs.Nodup
  valid : ∀ i ∈ s.segs, (s.store i).Valid
  joined : Linked (Gap ε) s.list

/-- each segment of `s'` is the image of the one of `s` under `f` -/
def MovedBy (f : V → V) (s s' : ShState) : Prop :=
  s'.segs = s.segs ∧ ∀ i ∈ s.segs, ∀ t, (s'.store i).point t = f ((s.store i).point t)

theorem Good.of_moved {ε : ℝ} {s s' : ShState} {f : V → V} (h : s.Good ε) (hm : MovedBy f s s')
    (hf : ∀ p q, len (p - q) ≤ ε → len (f p - f q) ≤ ε)
    (hv : ∀ i ∈ s'.segs, (s'.store i).Valid) : s'.Good ε := by
  refine ⟨by rw [hm.1]; exact h.nodup, hv, ?_⟩
  unfold ShState.list
  rw [hm.1]
  have hj := h.joined
  unfold ShState.list at hj
  intro l₁ a b l₂ he
  obtain ⟨m1, m2, h1, h2, h3⟩ := List.map_eq_append_iff.1 he
  cases m2 with
  | nil => cases h3
  | cons x m2 =>
    cases m2 with
    | nil => simp at h3
    | cons y m2 =>
      simp only [List.map_cons, List.cons.injEq] at h3
      obtain ⟨rfl, rfl, rfl⟩ := h3
      have hxy : Gap ε (s.store x) (s.store y) := hj _ _ _ _ (by rw [h1, List.map_append]; rfl)
      have hx : x ∈ s.segs := by rw [h1]; simp
      have hy : y ∈ s.segs := by rw [h1]; simp
      unfold Gap Seg.pointEnd Seg.pointStart at *
      rw [hm.2 x hx, hm.2 y hy]
      exact hf _ _ hxy

theorem translation_moves {ε : ℝ} (v : V) {s : ShState} (h : s.Good ε) :
    ∃ s', applyTranslation v s = .ok () s' ∧ MovedBy (· + v) s s' ∧ s'.Good ε ∧
      (∀ i ∈ s.segs, (s'.store i).length = (s.store i).length) ∧ ∀ i ∉ s.segs, s'.store i = s.store i := by
  have hl := translation_loop v s.segs s.store h.nodup
  set st := s.segs.foldl (fun st i => Function.update st i ((st i).translate v)) s.store with hst
  refine ⟨{ s with store := st }, rfl, ?_, ?_, ?_, ?_⟩
  · exact ⟨rfl, fun i hi t => by simp only [hl, hi, if_true]; exact Seg.translate_point v _ t⟩
  · refine Good.of_moved (f := (· + v)) h ⟨rfl, fun i hi t => by simp only [hl, hi, if_true]; exact Seg.translate_point v _ t⟩
      (fun p q hpq => by simp only [add_sub_add_right_eq_sub]; exact hpq) ?_
    intro i hi
    have hi' : i ∈ s.segs := hi
    simp only [hl, hi', if_true]
    exact Seg.translate_valid v (h.valid i hi')
  · intro i hi; simp only [hl, hi, if_true]; exact Seg.translate_length v _
  · intro i hi; simp only [hl, hi, if_false]

theorem iso_moves {ε : ℝ} {m : M} (hm : IsIso m) {s : ShState} (h : s.Good ε) :
    ∃ s', applyTransformation m s = .ok () s' ∧ MovedBy (m *ᵥ ·) s s' ∧ s'.Good ε ∧
      (∀ i ∈ s.segs, (s'.store i).length = (s.store i).length) ∧ ∀ i ∉ s.segs, s'.store i = s.store i := by
  classical
  have hex : ∀ i, ∃ x, i ∈ s.segs → (s.store i).transform m = .ok () x ∧ x.Valid ∧ x.length = (s.store i).length ∧
      ∀ t, x.point t = m *ᵥ (s.store i).point t := by
    intro i
    by_cases hi : i ∈ s.segs
    · obtain ⟨x, hx⟩ := Seg.transform_iso hm (h.valid i hi)
      exact ⟨x, fun _ => hx⟩
    · exact ⟨s.store i, fun h => absurd h hi⟩
  choose f hf using hex
  have hloop := transform_loop m s.segs s f h.nodup (fun i hi => (hf i hi).1)
  have hmv : MovedBy (m *ᵥ ·) s { s with store := fun i => if i ∈ s.segs then f i else s.store i } :=
    ⟨rfl, fun i hi t => by simp only [hi, if_true]; exact (hf i hi).2.2.2 t⟩
  refine ⟨_, hloop, hmv, Good.of_moved h hmv (fun p q hpq => by rw [← Matrix.mulVec_sub, hm.len]; exact hpq) ?_, ?_, ?_⟩
  · intro i hi
    have hi' : i ∈ s.segs := hi
    simp only [hi', if_true]; exact (hf i hi').2.1
  · intro i hi; simp only [hi, if_true]; exact (hf i hi).2.2.1
  · intro i hi; simp only [hi, if_false]

/-- shapes of line segments -/
def ShState.AllLines (s : ShState) : Prop := ∀ i ∈ s.segs, ∃ a b l, s.store i = .line a b l

theorem linear_moves {m : M} (hm : m.det ≠ 0) {s : ShState} (h : s.Good 0) (hlines : s.AllLines) :
    ∃ s', applyTransformation m s = .ok () s' ∧ MovedBy (m *ᵥ ·) s s' ∧ s'.Good 0 ∧ s'.AllLines := by
  classical
  have hex : ∀ i, ∃ x, i ∈ s.segs → (s.store i).transform m = .ok () x ∧ x.Valid ∧ (∃ a b l, x = .line a b l) ∧
      ∀ t, x.point t = m *ᵥ (s.store i).point t := by
    intro i
    by_cases hi : i ∈ s.segs
    · obtain ⟨a, b, l, he⟩ := hlines i hi
      have hv := h.valid i hi
      rw [he] at hv
      obtain ⟨l', h1, h2⟩ := Seg.transform_line hm hv
      refine ⟨.line (m *ᵥ a) (m *ᵥ b) l', fun _ => ⟨by rw [he]; exact h1, h2, ⟨_, _, _, rfl⟩, fun t => ?_⟩⟩
      rw [he]
      simp only [Seg.point, Matrix.mulVec_add, Matrix.mulVec_smul, Matrix.mulVec_sub]
    · exact ⟨s.store i, fun h => absurd h hi⟩
  choose f hf using hex
  have hloop := transform_loop m s.segs s f h.nodup (fun i hi => (hf i hi).1)
  have hmv : MovedBy (m *ᵥ ·) s { s with store := fun i => if i ∈ s.segs then f i else s.store i } :=
    ⟨rfl, fun i hi t => by simp only [hi, if_true]; exact (hf i hi).2.2.2 t⟩
  refine ⟨_, hloop, hmv, Good.of_moved h hmv (fun p q hpq => ?_) ?_, ?_⟩
  · have : p - q = 0 := len_eq_zero.1 (le_antisymm hpq (Real.sqrt_nonneg _))
    rw [← Matrix.mulVec_sub, this, Matrix.mulVec_zero, len_eq_zero.2 rfl]
  · intro i hi
    have hi' : i ∈ s.segs := hi
    simp only [hi', if_true]; exact (hf i hi').2.1
  · intro i hi
    have hi' : i ∈ s.segs := hi
    simp only [hi', if_true]; exact (hf i hi').2.2.1

/-! ### C48: reflections -/

/-- `q` is the mirror image of `p` with respect to the line through `a` with the normal `n` -/
def Mirror (a n p q : V) : Prop := (∃ c : ℝ, q - p = c • n) ∧ dot n ((1 / 2 : ℝ) • (p + q) - a) = 0

theorem Mirror.unique {a n p q q' : V} (hn : n ≠ 0) (h : Mirror a n p q) (h' : Mirror a n p q') : q = q' := by
  obtain ⟨⟨c, hc⟩, h2⟩ := h
  obtain ⟨⟨c', hc'⟩, h2'⟩ := h'
  have hp := sq_pos_of_ne hn
  have e0 : q = p + c • n := by rw [← hc]; abel
  have e0' : q' = p + c' • n := by rw [← hc']; abel
  have : (c - c') * (n 0 * n 0 + n 1 * n 1) = 0 := by
    rw [e0] at h2; rw [e0'] at h2'
    simp only [dot, Pi.sub_apply, Pi.smul_apply, Pi.add_apply, smul_eq_mul] at h2 h2'
    linear_combination 2 * h2 - 2 * h2'
  rcases mul_eq_zero.1 this with h | h
  · rw [e0, e0', sub_eq_zero.1 h]
  · exact absurd h hp.ne'

/-- a mirror image of the mirror image is the point -/
theorem Mirror.symm {a n p q : V} (h : Mirror a n p q) : Mirror a n q p := by
  obtain ⟨⟨c, hc⟩, h2⟩ := h
  exact ⟨⟨-c, by rw [neg_smul, ← hc]; abel⟩, by rw [add_comm]; exact h2⟩

/-- points on the line are their own mirror image -/
theorem Mirror.self {a n p : V} (h : dot n (p - a) = 0) : Mirror a n p p := by
  refine ⟨⟨0, by simp⟩, ?_⟩
  rw [← h]; congr 1
  funext i; simp; ring

theorem householder_entries (n : V) : householder n = !![1 - 2 / dot n n * (n 0 * n 0), -(2 / dot n n * (n 0 * n 1));
    -(2 / dot n n * (n 1 * n 0)), 1 - 2 / dot n n * (n 1 * n 1)] := by
  funext i j; fin_cases i <;> fin_cases j <;> simp [householder, Matrix.vecMulVec_apply]

theorem householder_apply (n v : V) : householder n *ᵥ v = v - (2 * dot n v / dot n n) • n := by
  rw [householder_entries, mulVec_two]
  funext i; fin_cases i
  · simp [dot]; ring
  · simp [dot]; ring

theorem householder_k {n : V} (hn : n ≠ 0) : 2 / dot n n * (n 0 * n 0 + n 1 * n 1) = 2 :=
  div_mul_cancel₀ 2 (sq_pos_of_ne hn).ne'

theorem householder_det {n : V} (hn : n ≠ 0) : (householder n).det = -1 := by
  have hk := householder_k hn
  rw [householder_entries, Matrix.det_fin_two]
  generalize 2 / dot n n = k at hk
  simp
  linear_combination -hk

theorem householder_iso {n : V} (hn : n ≠ 0) : IsIso (householder n) := by
  have hk := householder_k hn
  unfold IsIso
  rw [householder_entries]
  generalize 2 / dot n n = k at hk
  funext i j; fin_cases i <;> fin_cases j <;>
    simp [Matrix.mul_apply, Fin.sum_univ_two]
  · linear_combination k * n 0 * n 0 * hk
  · linear_combination k * n 0 * n 1 * hk
  · linear_combination k * n 0 * n 1 * hk
  · linear_combination k * n 1 * n 1 * hk

theorem not_close_ne {n : V} (h : ¬ vectorIsClose n 0) : n ≠ 0 := by
  rintro rfl; exact h (vectorIsClose_refl _)

/-- the reflection performed by the code -/
noncomputable def reflect (n : V) (d : ℝ) (p : V) : V :=
  householder n *ᵥ (p + -(d • ((√(dot n n))⁻¹ • n))) + d • ((√(dot n n))⁻¹ • n)

theorem reflect_mirror {n : V} (hn : n ≠ 0) (d : ℝ) (p : V) :
    Mirror (d • ((√(dot n n))⁻¹ • n)) n p (reflect n d p) := by
  have hp : dot n n ≠ 0 := (sq_pos_of_ne hn).ne'
  set o := d • ((√(dot n n))⁻¹ • n) with ho
  have e : reflect n d p = p - (2 * dot n (p - o) / dot n n) • n := by
    unfold reflect
    rw [← ho, householder_apply, ← sub_eq_add_neg]; abel
  rw [e]
  refine ⟨⟨-(2 * dot n (p - o) / dot n n), by rw [neg_smul]; abel⟩, ?_⟩
  have : (1 / 2 : ℝ) • (p + (p - (2 * dot n (p - o) / dot n n) • n)) - o = (p - o) - (dot n (p - o) / dot n n) • n := by
    funext i; simp; ring
  rw [this]
  have lin : ∀ (u : V) (c : ℝ), dot n (u - c • n) = dot n u - c * dot n n := by
    intro u c; simp only [dot, Pi.sub_apply, Pi.smul_apply, smul_eq_mul]; ring
  rw [lin, div_mul_cancel₀ _ hp, sub_self]

theorem reflect_moves {ε : ℝ} {n : V} (hn : ¬ vectorIsClose n 0) (d : ℝ) {s : ShState} (h : s.Good ε) :
    ∃ s', applyReflection n d s = .ok () s' ∧ MovedBy (reflect n d) s s' ∧ s'.Good ε ∧
      (∀ i ∈ s.segs, (s'.store i).length = (s.store i).length) ∧ ∀ i ∉ s.segs, s'.store i = s.store i := by
  unfold applyReflection
  rw [if_neg hn]
  obtain ⟨s1, h1, m1, g1, l1, u1⟩ := translation_moves (-(d • ((√(dot n n))⁻¹ • n))) h
  obtain ⟨s2, h2, m2, g2, l2, u2⟩ := iso_moves (householder_iso (not_close_ne hn)) g1
  obtain ⟨s3, h3, m3, g3, l3, u3⟩ := translation_moves (d • ((√(dot n n))⁻¹ • n)) g2
  refine ⟨s3, ?_, ⟨by rw [m3.1, m2.1, m1.1], ?_⟩, g3, ?_, ?_⟩
  · rw [Py.bind_ok h1, Py.bind_ok h2]; exact h3
  · intro i hi t
    have hi1 : i ∈ s1.segs := by rw [m1.1]; exact hi
    have hi2 : i ∈ s2.segs := by rw [m2.1]; exact hi1
    rw [m3.2 i hi2, m2.2 i hi1, m1.2 i hi]; rfl
  · intro i hi
    have hi1 : i ∈ s1.segs := by rw [m1.1]; exact hi
    have hi2 : i ∈ s2.segs := by rw [m2.1]; exact hi1
    rw [l3 i hi2, l2 i hi1, l1 i hi]
  · intro i hi
    have hi1 : i ∉ s1.segs := by rw [m1.1]; exact hi
    have hi2 : i ∉ s2.segs := by rw [m2.1]; exact hi1
    rw [u3 i hi2, u2 i hi1, u1 i hi]

/-- **C48.** Reflecting a shape maps every point of every segment to its mirror image with respect to the line with
the given normal and distance from the origin; lengths of segments are kept and other shapes are not changed. -/
theorem C48_reflection {ε : ℝ} {n : V} (hn : ¬ vectorIsClose n 0) (d : ℝ) {s : ShState} (h : s.Good ε) :
    ∃ s', applyReflection n d s = .ok () s' ∧ s'.segs = s.segs ∧ s'.Good ε ∧
      (∀ i ∈ s.segs, ∀ t, Mirror ((d / len n) • n) n ((s.store i).point t) ((s'.store i).point t)) ∧
      (∀ i ∈ s.segs, (s'.store i).length = (s.store i).length) ∧ ∀ i ∉ s.segs, s'.store i = s.store i := by
  obtain ⟨s', h1, h2, h3, h4, h5⟩ := reflect_moves hn d h
  refine ⟨s', h1, h2.1, h3, fun i hi t => ?_, h4, h5⟩
  rw [h2.2 i hi]
  have := reflect_mirror (not_close_ne hn) d ((s.store i).point t)
  rwa [smul_smul, ← div_eq_mul_inv] at this

/-- **C48.** Reflecting twice gives the original shape. -/
theorem C48_involution {ε : ℝ} {n : V} (hn : ¬ vectorIsClose n 0) (d : ℝ) {s : ShState} (h : s.Good ε) :
    ∃ s' s'', applyReflection n d s = .ok () s' ∧ applyReflection n d s' = .ok () s'' ∧ s''.segs = s.segs ∧
      ∀ i ∈ s.segs, (∀ t, (s''.store i).point t = (s.store i).point t) ∧ (s''.store i).length = (s.store i).length := by
  obtain ⟨s', a1, a2, a3, a4, a5, -⟩ := C48_reflection hn d h
  obtain ⟨s'', b1, b2, b3, b4, b5, -⟩ := C48_reflection hn d a3
  refine ⟨s', s'', a1, b1, by rw [b2, a2], fun i hi => ⟨fun t => ?_, ?_⟩⟩
  · exact Mirror.unique (not_close_ne hn) (b4 i (by rw [a2]; exact hi) t) (a4 i hi t).symm
  · rw [b5 i (by rw [a2]; exact hi), a5 i hi]

/-- **C48.** Mirror images: points on the line are fixed, distances are kept, left and right are exchanged. -/
theorem C48_mirror {a n : V} (hn : n ≠ 0) {p q r p' q' r' : V} (hp : Mirror a n p p') (hq : Mirror a n q q')
    (hr : Mirror a n r r') :
    (dot n (p - a) = 0 → p' = p) ∧ len (p' - q') = len (p - q) ∧
      pointLeftOfLine p' q' r' = - pointLeftOfLine p q r := by
  have hpos := sq_pos_of_ne hn
  have expl : ∀ {p p' : V}, Mirror a n p p' → p' = p - (2 * dot n (p - a) / dot n n) • n := by
    intro p p' h
    obtain ⟨⟨c, hc⟩, h2⟩ := h
    have e : p' = p + c • n := by rw [← hc]; abel
    have : c = -(2 * dot n (p - a) / dot n n) := by
      rw [e] at h2
      rw [eq_neg_iff_add_eq_zero, add_comm, ← eq_neg_iff_add_eq_zero, div_eq_iff (by unfold dot; exact hpos.ne')]
      simp only [dot, Pi.sub_apply, Pi.smul_apply, Pi.add_apply, smul_eq_mul] at *
      linear_combination 2 * h2
    rw [e, this, neg_smul, ← sub_eq_add_neg]
  have diff : ∀ {p p' q q' : V}, Mirror a n p p' → Mirror a n q q' → p' - q' = householder n *ᵥ (p - q) := by
    intro p p' q q' h h'
    rw [expl h, expl h', householder_apply]
    have : 2 * dot n (p - q) / dot n n = 2 * dot n (p - a) / dot n n - 2 * dot n (q - a) / dot n n := by
      rw [← sub_div]; congr 1; simp only [dot, Pi.sub_apply]; ring
    rw [this, sub_smul]; abel
  refine ⟨fun h => Mirror.unique hn hp (Mirror.self h), ?_, ?_⟩
  · rw [diff hp hq, (householder_iso hn).len]
  · have key := C54_transformation (householder n) (p - q) (r - q)
    have hdet := householder_det hn
    have hs : reflectionSign (householder n) = some (-1) := by
      unfold reflectionSign
      have : npSign (householder n).det = -1 := npSign_eq_neg_one.2 (by rw [hdet]; norm_num)
      simp [this]
    rw [hs] at key
    simp only at key
    unfold pointLeftOfLine
    simp only
    rw [diff hp hq, diff hr hq, key]; ring

/-- **C48.** Reflecting a shape across the line through two points maps every point to its mirror image with respect to
this line. -/
theorem C48_across_line {ε : ℝ} {a b : V} (hab : ¬ vectorIsClose a b) {s : ShState} (h : s.Good ε) :
    ∃ s', applyReflectionAcrossLine a b s = .ok () s' ∧ s'.segs = s.segs ∧ s'.Good ε ∧
      (∀ i ∈ s.segs, ∀ t, Mirror a (turn (b - a)) ((s.store i).point t) ((s'.store i).point t)) := by
  unfold applyReflectionAcrossLine
  simp only [if_neg hab]
  have hne : b - a ≠ 0 := by
    intro h0; rw [sub_eq_zero] at h0; subst h0; exact hab (vectorIsClose_refl _)
  have hpos := sq_pos_of_ne hne
  set v := b - a with hv
  set n : V := if pointLeftOfLine 0 a b > 0 then ![v 1, -v 0] else ![-v 1, v 0] with hn
  have hturn : n = (if pointLeftOfLine 0 a b > 0 then (-1 : ℝ) else 1) • turn v := by
    rw [hn]; split <;> (funext i; fin_cases i <;> simp [turn])
  have hbig : 1 / 1000000000 < |v 0| ∨ 1 / 1000000000 < |v 1| := by
    by_contra hc
    rw [not_or] at hc
    apply hab
    have h0 := not_lt.1 hc.1
    have h1 := not_lt.1 hc.2
    have p0 := abs_nonneg (b 0)
    have p1 := abs_nonneg (b 1)
    simp only [hv, Pi.sub_apply] at h0 h1
    constructor
    · unfold isclose; rw [abs_sub_comm]; linarith
    · unfold isclose; rw [abs_sub_comm]; linarith
  have hclose : ¬ vectorIsClose n 0 := by
    rintro ⟨c0, c1⟩
    simp only [isclose, Pi.zero_apply, sub_zero, abs_zero, mul_zero, add_zero] at c0 c1
    have e : |n 0| = |v 1| ∧ |n 1| = |v 0| := by rw [hn]; split <;> simp
    rw [e.1] at c0; rw [e.2] at c1
    rcases hbig with h | h <;> linarith
  obtain ⟨s', h1, h2, h3, h4, -, -⟩ := C48_reflection hclose (|a 1 * b 0 - a 0 * b 1| / len v) h
  refine ⟨s', h1, h2, h3, fun i hi t => ?_⟩
  obtain ⟨⟨c, hc⟩, hm⟩ := h4 i hi t
  have hlen : len n = len v := by
    unfold len; congr 1; rw [hn]; simp only [dot]; split <;> simp <;> ring
  have hl2 : len v * len v = dot v v := len_mul_self v
  have hl0 : len v ≠ 0 := mt len_eq_zero.1 hne
  have hdv : dot v v ≠ 0 := hpos.ne'
  constructor
  · exact ⟨c * (if pointLeftOfLine 0 a b > 0 then (-1 : ℝ) else 1), by rw [hc, hturn, smul_smul]⟩
  · -- both base points are on the line
    have hsame : dot n ((|a 1 * b 0 - a 0 * b 1| / len v / len n) • n) = dot n a := by
      have hleft : pointLeftOfLine 0 a b = npSign (a 0 * b 1 - a 1 * b 0) := by
        unfold pointLeftOfLine vectorPointsToLeft
        simp only
        rw [det_rows]; congr 1; simp only [Pi.sub_apply, Pi.zero_apply]; ring
      have e1 : dot n ((|a 1 * b 0 - a 0 * b 1| / len v / len n) • n) = |a 1 * b 0 - a 0 * b 1| := by
        have : dot n ((|a 1 * b 0 - a 0 * b 1| / len v / len n) • n) = (|a 1 * b 0 - a 0 * b 1| / len v / len n) * dot n n := by
          simp only [dot, Pi.smul_apply, smul_eq_mul]; ring
        rw [this, ← len_mul_self n, hlen]
        field_simp
      rw [e1, hn, abs_sub_comm]
      by_cases hx : 0 < a 0 * b 1 - a 1 * b 0
      · have : pointLeftOfLine 0 a b > 0 := by rw [hleft, npSign_eq_one.2 hx]; norm_num
        rw [if_pos this, abs_of_pos hx]
        simp [dot, hv]; ring
      · have : ¬ pointLeftOfLine 0 a b > 0 := by
          rw [hleft]
          rcases sideOf_npSign (a 0 * b 1 - a 1 * b 0) with ⟨h, _⟩ | ⟨_, e⟩ | ⟨_, e⟩
          · exact absurd h hx
          · rw [e]; norm_num
          · rw [e]; norm_num
        rw [if_neg this, abs_of_nonpos (not_lt.1 hx)]
        simp [dot, hv]; ring
    have hm' : dot n ((1 / 2 : ℝ) • ((s.store i).point t + (s'.store i).point t) - a) = 0 := by
      have lin : ∀ u w : V, dot n (u - w) = dot n u - dot n w := by
        intro u w; simp only [dot, Pi.sub_apply]; ring
      rw [lin] at hm ⊢
      rw [← hsame]; exact hm
    have htn : turn v = (if pointLeftOfLine 0 a b > 0 then (-1 : ℝ) else 1) • n := by
      rw [hturn, smul_smul]; split <;> simp
    rw [htn]
    have : ∀ (c : ℝ) (u : V), dot (c • n) u = c * dot n u := by
      intro c u; simp only [dot, Pi.smul_apply, smul_eq_mul]; ring
    rw [this, hm', mul_zero]

end Weldx.Geo
