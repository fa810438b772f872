import Verif.Geometry.Shape

/-!
# Histories of shapes (C47)
-/

namespace Weldx.Geo
open Real Matrix

/-! ### adding line segments -/

/-- The segments a list of points describes: each connects two consecutive points. -/
structure Polyline (points : List V) (new : List Seg) : Prop where
  count : new.length = points.length - 1
  segs : ∀ k (h : k < new.length) p q, points[k]? = some p → points[k + 1]? = some q → new[k] = .line p q (len (q - p))

theorem len_sub_pos {p q : V} : 0 < len (q - p) ↔ p ≠ q := by
  rw [lt_iff_le_and_ne]
  constructor
  · rintro ⟨-, h⟩ rfl
    exact h (by rw [sub_self, len_eq_zero.2 rfl])
  · intro h
    exact ⟨len_nonneg _, fun h0 => h (sub_eq_zero.1 (len_eq_zero.1 h0.symm)).symm⟩

theorem mkLine_eq {p q : V} (h : p ≠ q) : mkLine p q = .ok (.line p q (len (q - p))) := by
  unfold mkLine; rw [if_neg (not_le.2 (len_sub_pos.2 h))]

theorem mkLine_self (p : V) : mkLine p p = .error .valueError := by
  unfold mkLine; rw [if_pos (by rw [sub_self, len_eq_zero.2 rfl])]

/-- `allocLines` succeeds exactly if consecutive points differ -/
theorem allocLines_spec : ∀ (points : List V) (fresh : ℕ),
    (∃ new, allocLines fresh points = .ok new ∧ Linked (· ≠ ·) points ∧ Polyline points (new.map Prod.snd) ∧
      new.map Prod.fst = List.range' fresh (points.length - 1)) ∨
    (allocLines fresh points = .error .valueError ∧ ¬ Linked (· ≠ ·) points)
  | [], _ => .inl ⟨[], rfl, linked_nil, ⟨rfl, by simp⟩, rfl⟩
  | [p], _ => .inl ⟨[], rfl, linked_one p, ⟨rfl, by simp⟩, rfl⟩
  | p :: q :: l, fresh => by
    unfold allocLines
    by_cases hpq : p = q
    · subst hpq
      simp only [mkLine_self, bind, Except.bind]
      exact .inr ⟨trivial, fun h => (linked_cons.1 h).1 rfl⟩
    · simp only [mkLine_eq hpq, bind, Except.bind]
      rcases allocLines_spec (q :: l) (fresh + 1) with ⟨new, h1, h2, h3, h4⟩ | ⟨h1, h2⟩
      · rw [h1]
        refine .inl ⟨_, rfl, linked_cons.2 ⟨hpq, h2⟩, ⟨?_, ?_⟩, ?_⟩
        · have := h3.count
          simp at this ⊢; exact this
        · intro k hk a b ha hb
          cases k with
          | zero => simp at ha hb; subst ha; subst hb; rfl
          | succ k => exact h3.segs k (by simpa using hk) a b (by simpa using ha) (by simpa using hb)
        · simp only [List.map_cons, List.length_cons, Nat.add_sub_cancel] at h4 ⊢
          rw [h4]; rfl
      · rw [h1]; exact .inr ⟨rfl, fun h => h2 (linked_cons.1 h).2⟩

theorem extend_not_mem {st : ℕ → Seg} {l : List (ℕ × Seg)} {i : ℕ} (h : i ∉ l.map Prod.fst) : extend st l i = st i := by
  unfold extend
  have : l.find? (fun x => x.1 = i) = none := by
    rw [List.find?_eq_none]
    intro x hx; simp only [decide_eq_true_eq]
    rintro rfl; exact h (List.mem_map_of_mem hx)
  rw [this]

theorem extend_map (st : ℕ → Seg) : ∀ (l : List (ℕ × Seg)), (l.map Prod.fst).Nodup →
    (l.map Prod.fst).map (extend st l) = l.map Prod.snd
  | [], _ => rfl
  | x :: l, h => by
    simp only [List.map_cons, List.nodup_cons] at h
    have ih := extend_map st l h.2
    simp only [List.map_cons]
    congr 1
    · simp [extend]
    · rw [← ih]
      apply List.map_congr_left
      intro i hi
      have : x.1 ≠ i := by rintro rfl; exact h.1 hi
      simp [extend, this]

theorem Polyline.linked {points : List V} {new : List Seg} (h : Polyline points new) : Linked Joined new := by
  intro l₁ a b l₂ he
  have hc := h.count
  have hlen : new.length = l₁.length + (l₂.length + 2) := by rw [he]; simp
  have g1 : points[l₁.length]? = some (points[l₁.length]'(by omega)) := List.getElem?_eq_getElem _
  have g2 : points[l₁.length + 1]? = some (points[l₁.length + 1]'(by omega)) := List.getElem?_eq_getElem _
  have g3 : points[l₁.length + 1 + 1]? = some (points[l₁.length + 1 + 1]'(by omega)) := List.getElem?_eq_getElem _
  have e1 := h.segs l₁.length (by omega) _ _ g1 g2
  have e2 := h.segs (l₁.length + 1) (by omega) _ _ g2 g3
  have a1 : new[l₁.length]'(by omega) = a := by simp [he]
  have a2 : new[l₁.length + 1]'(by omega) = b := by simp [he]
  rw [← a1, ← a2, e1, e2]
  simp [Joined]

theorem Polyline.valid {points : List V} {new : List Seg} (h : Polyline points new) (hn : Linked (· ≠ ·) points) :
    ∀ x ∈ new, x.Valid ∧ ∃ a b l, x = .line a b l := by
  intro x hx
  obtain ⟨k, hk, rfl⟩ := List.getElem_of_mem hx
  have hc := h.count
  have g1 : points[k]? = some (points[k]'(by omega)) := List.getElem?_eq_getElem _
  have g2 : points[k + 1]? = some (points[k + 1]'(by omega)) := List.getElem?_eq_getElem _
  rw [h.segs k hk _ _ g1 g2]
  refine ⟨⟨rfl, len_sub_pos.2 ?_⟩, _, _, _, rfl⟩
  refine hn (points.take k) _ _ (points.drop (k + 2)) ?_
  conv_lhs => rw [← List.take_append_drop k points]
  rw [List.drop_eq_getElem_cons (show k < points.length by omega),
    List.drop_eq_getElem_cons (show k + 1 < points.length by omega)]

theorem Polyline.head {p : V} {points : List V} {new : List Seg} (h : Polyline (p :: points) new) :
    ∀ b, new.head? = some b → b.pointStart = p := by
  intro b hb
  have hc := h.count
  cases new with
  | nil => cases hb
  | cons x new =>
    simp only [List.head?_cons, Option.some.injEq] at hb; subst hb
    have hl : 1 < (p :: points).length := by simp at hc ⊢; omega
    have := h.segs 0 (by simp) p _ rfl (List.getElem?_eq_getElem hl)
    simp only [List.getElem_cons_zero] at this
    rw [this]; simp

/-- the points of which line segments are added: they continue the shape -/
noncomputable def ShState.continued (s : ShState) (points : List V) : List V :=
  (s.segs.getLast?.map fun x => (s.store x).pointEnd).toList ++ points

/-- **C47.** Adding line segments: they are added if there are at least two points (counting the end of the shape) and
consecutive points differ; then exactly the segments between these points are appended as new objects, which are
connected with each other and with the shape. Otherwise the shape stays as it is. -/
theorem C47_add_lines (fresh : ℕ) (points : List V) (s : ShState) (hf : ∀ i ∈ s.segs, i < fresh) :
    match addLineSegments fresh points s with
    | .ok _ s' => 2 ≤ (s.continued points).length ∧ Linked (· ≠ ·) (s.continued points) ∧
        ∃ new, s'.segs = s.segs ++ new ∧ (∀ i ∈ new, fresh ≤ i) ∧ new.Nodup ∧ (∀ i < fresh, s'.store i = s.store i) ∧
          Polyline (s.continued points) (new.map s'.store) ∧
          (∀ ε ≥ 0, Linked (Gap ε) s.list → Linked (Gap ε) s'.list)
    | .err _ s' => s' = s ∧ ((s.continued points).length < 2 ∨ ¬ Linked (· ≠ ·) (s.continued points)) := by
  -- what happens with the list of points
  have core : ∀ pts : List V, pts = s.continued points → (s.segs = [] → 2 ≤ pts.length) →
      match (do
          let new ← Py.lift (allocLines fresh pts)
          Py.modify fun s => { s with store := extend s.store new }
          addSegments (new.map Prod.fst) : Py GErr ShState Unit) s with
      | .ok _ s' => 2 ≤ pts.length ∧ Linked (· ≠ ·) pts ∧
        ∃ new, s'.segs = s.segs ++ new ∧ (∀ i ∈ new, fresh ≤ i) ∧ new.Nodup ∧ (∀ i < fresh, s'.store i = s.store i) ∧
          Polyline pts (new.map s'.store) ∧ (∀ ε ≥ 0, Linked (Gap ε) s.list → Linked (Gap ε) s'.list)
      | .err _ s' => s' = s ∧ (pts.length < 2 ∨ ¬ Linked (· ≠ ·) pts) := by
    intro pts hpts hempty
    rcases allocLines_spec pts fresh with ⟨new, h1, h2, h3, h4⟩ | ⟨h1, h2⟩
    swap
    · rw [h1, Py.lift_error_bind]; exact ⟨rfl, .inr h2⟩
    rw [h1, Py.lift_ok_bind, Py.modify_bind]
    have hnd : (new.map Prod.fst).Nodup := by rw [h4]; exact List.nodup_range' _
    have hge : ∀ i ∈ new.map Prod.fst, fresh ≤ i := by
      intro i hi; rw [h4, List.mem_range'_1] at hi; exact hi.1
    have hst : ∀ i < fresh, extend s.store new i = s.store i := fun i hi =>
      extend_not_mem fun h => absurd (hge i h) (not_le.2 hi)
    have hold : s.segs.map (extend s.store new) = s.segs.map s.store :=
      List.map_congr_left fun i hi => hst i (hf i hi)
    have hj : Linked Joined (new.map Prod.snd) := h3.linked
    have hcl : checkConnected ((new.map Prod.fst).map (extend s.store new)) = .ok () := by
      rw [checkConnected_iff, extend_map _ _ hnd]
      intro l₁ a b l₂ he; exact (hj l₁ a b l₂ he).close
    have fin : ∀ s' : ShState, s'.segs = s.segs ++ new.map Prod.fst → s'.store = extend s.store new →
        (∀ a b, s.list.getLast? = some a → (new.map Prod.snd).head? = some b → Joined a b) → new ≠ [] →
        2 ≤ pts.length ∧ Linked (· ≠ ·) pts ∧
        ∃ new, s'.segs = s.segs ++ new ∧ (∀ i ∈ new, fresh ≤ i) ∧ new.Nodup ∧ (∀ i < fresh, s'.store i = s.store i) ∧
          Polyline pts (new.map s'.store) ∧ (∀ ε ≥ 0, Linked (Gap ε) s.list → Linked (Gap ε) s'.list) := by
      intro s' e1 e2 hlast hne
      refine ⟨?_, h2, new.map Prod.fst, e1, hge, hnd, fun i hi => by rw [e2, hst i hi], ?_, ?_⟩
      · have := h3.count
        have hp := List.length_pos_of_ne_nil hne
        rw [List.length_map] at this; omega
      · rw [e2, extend_map _ _ hnd]; exact h3
      · intro ε hε hl
        have hg : ∀ {a b : Seg}, Joined a b → Gap ε a b := fun h => (gap_zero.2 h).trans hε
        unfold ShState.list
        rw [e1, e2, List.map_append, extend_map _ _ hnd, hold, linked_append]
        exact ⟨hl, fun l₁ a b l₂ he => hg (hj l₁ a b l₂ he), fun a b ha hb => hg (hlast a b ha hb)⟩
    unfold addSegments
    rw [Py.get_bind]
    cases hl : s.segs.getLast? with
    | none =>
      have he : s.segs = [] := List.getLast?_eq_none_iff.1 hl
      simp only
      rw [hcl]
      refine fin _ rfl rfl (by intro a b ha; simp [ShState.list, he] at ha) ?_
      rintro rfl
      have := h3.count; have := hempty he; simp at *; omega
    | some x =>
      simp only
      have hx : x ∈ s.segs := List.mem_of_getLast? hl
      have hpts' : pts = (s.store x).pointEnd :: points := by rw [hpts]; simp [ShState.continued, hl]
      cases hnew : new.map Prod.fst with
      | nil =>
        have h0 : new = [] := List.map_eq_nil_iff.1 hnew
        subst h0
        refine ⟨?_, .inl ?_⟩
        · rfl
        · have := h3.count
          rw [hpts'] at this ⊢
          simp only [List.map_nil, List.length_nil, List.length_cons] at this ⊢
          omega
      | cons y ys =>
        have hne : new ≠ [] := by rintro rfl; cases hnew
        have hlast : s.list.getLast? = some (s.store x) := by simp [ShState.list, List.getLast?_map, hl]
        have hjoin : ∀ a b, s.list.getLast? = some a → (new.map Prod.snd).head? = some b → Joined a b := by
          intro a b ha hb
          rw [hlast] at ha; cases ha
          rw [hpts'] at h3
          exact (h3.head b hb).symm
        have hy : (new.map Prod.snd).head? = some (extend s.store new y) := by
          rw [← extend_map s.store new hnd, hnew]; rfl
        have hcheck : checkConnected [extend s.store new x, extend s.store new y] = .ok () := by
          rw [checkConnected_iff, linked_cons]
          refine ⟨?_, linked_one _⟩
          rw [hst x (hf x hx)]
          exact (hjoin _ _ hlast hy).close
        rw [hnew] at hcl fin
        simp only
        rw [hcheck, Py.lift_ok_bind, hcl, Py.lift_ok_bind, Py.modify_apply]
        exact fin _ rfl rfl hjoin hne
  unfold addLineSegments
  rw [Py.get_bind]
  cases hl : s.segs.getLast? with
  | none =>
    have he : s.segs = [] := List.getLast?_eq_none_iff.1 hl
    have hc : s.continued points = points := by simp [ShState.continued, hl]
    simp only
    by_cases hp : points.length ≤ 1
    · rw [if_pos hp]
      refine ⟨rfl, .inl ?_⟩
      rw [hc]; omega
    · rw [if_neg hp, hc]
      exact core points hc.symm (fun _ => by omega)
  | some x =>
    have hc : s.continued points = (s.store x).pointEnd :: points := by simp [ShState.continued, hl]
    have hne : s.segs ≠ [] := by intro h; rw [h] at hl; cases hl
    rw [hc]
    exact core _ hc.symm (fun h => absurd h hne)

/-! ### histories -/

/-- Shapes made by a history of operations, where calls may also fail. New segments are different objects, made by their
constructors, at places where the tolerance of the check is at most `ε`; transformations are isometries (or invertible
if the shape consists of lines that are exactly connected). -/
inductive Reach (ε : ℝ) : ShState → Prop
  | construct (store : ℕ → Seg) (l : List ℕ) (s : ShState) : mkShape store l = .ok s → l.Nodup →
      (∀ i ∈ l, (store i).Valid) → (∀ i ∈ l, ∀ j ∈ l, Close (store i) (store j) → Gap ε (store i) (store j)) → Reach ε s
  | add (s : ShState) (new : List ℕ) : Reach ε s → (s.segs ++ new).Nodup → (∀ i ∈ new, (s.store i).Valid) →
      (∀ i ∈ s.segs ++ new, ∀ j ∈ new, Close (s.store i) (s.store j) → Gap ε (s.store i) (s.store j)) →
      Reach ε (addSegments new s).state
  | addLines (s : ShState) (fresh : ℕ) (points : List V) : Reach ε s → (∀ i ∈ s.segs, i < fresh) →
      Reach ε (addLineSegments fresh points s).state
  | translate (s : ShState) (v : V) : Reach ε s → Reach ε (applyTranslation v s).state
  | transform (s : ShState) (m : M) : Reach ε s → (IsIso m ∨ ε = 0 ∧ m.det ≠ 0 ∧ s.AllLines) →
      Reach ε (applyTransformation m s).state
  | reflect (s : ShState) (n : V) (d : ℝ) : Reach ε s → Reach ε (applyReflection n d s).state
  | reflectLine (s : ShState) (a b : V) : Reach ε s → Reach ε (applyReflectionAcrossLine a b s).state
  | other (s : ShState) (store : ℕ → Seg) : Reach ε s → (∀ i ∈ s.segs, store i = s.store i) → Reach ε { s with store := store }

theorem list_eq_of_store {s : ShState} {store : ℕ → Seg} (h : ∀ i ∈ s.segs, store i = s.store i) :
    ShState.list { s with store := store } = s.list := List.map_congr_left h

/-- from accepted segments to gaps -/
theorem linked_gap {ε : ℝ} {st : ℕ → Seg} {l : List ℕ} (h : Linked Close (l.map st))
    (hg : ∀ i ∈ l, ∀ j ∈ l, Close (st i) (st j) → Gap ε (st i) (st j)) : Linked (Gap ε) (l.map st) := by
  have : ∀ l' : List ℕ, (∀ i ∈ l', i ∈ l) → Linked Close (l'.map st) → Linked (Gap ε) (l'.map st) := by
    intro l' hsub
    induction l' with
    | nil => intro _; exact linked_nil
    | cons x l' ih =>
      cases l' with
      | nil => intro _; exact linked_one _
      | cons y l' =>
        simp only [List.map_cons]
        rw [linked_cons, linked_cons]
        intro hc
        exact ⟨hg x (hsub x (by simp)) y (hsub y (by simp)) hc.1, ih (fun i hi => hsub i (by simp [hi])) hc.2⟩
  exact this l (fun _ h => h) h

/-- **C47 (part).** In every shape with such a history, each segment starts where the previous one ends, up to `ε`; in
particular exactly, if `ε = 0`.

Missing: transformations that are not isometries for shapes with arcs and shapes with larger gaps, transformations with
singular matrices and shapes that contain the same object several times. The counterexamples below show that the claim
does not hold for them. -/
theorem C47_history_partial {ε : ℝ} (hε : 0 ≤ ε) {s : ShState} (h : Reach ε s) : s.Good ε := by
  induction h with
  | construct store l s h1 h2 h3 h4 =>
    have hc := (C47_construct store l).1 ⟨s, h1⟩
    unfold mkShape at h1
    rw [(checkConnected_iff _).2 hc] at h1
    cases h1
    exact ⟨h2, h3, linked_gap hc h4⟩
  | add s new _ h2 h3 h4 ih =>
    -- the list of the shape and the new list, up to the tolerance of the check at the new places
    unfold addSegments
    rw [Py.get_bind]
    cases hl : s.segs.getLast? with
    | none =>
      have he : s.segs = [] := List.getLast?_eq_none_iff.1 hl
      simp only
      rcases checkConnected_cases (new.map s.store) with ⟨c1, c2⟩ | ⟨⟨e, c1⟩, -⟩
      · rw [c1, Py.lift_ok_bind, Py.modify_apply, Res.state_ok]
        refine ⟨h2, ?_, ?_⟩
        · intro i hi; simp only [he, List.nil_append] at hi; exact h3 i hi
        · simp only [ShState.list, he, List.nil_append]
          exact linked_gap c2 fun i hi j hj => h4 i (by simp [hi]) j hj
      · rw [c1, Py.lift_error_bind]; exact ih
    | some x =>
      have hx : x ∈ s.segs := List.mem_of_getLast? hl
      cases new with
      | nil => exact ih
      | cons y new =>
        simp only
        rcases checkConnected_cases [s.store x, s.store y] with ⟨c1, c2⟩ | ⟨⟨e, c1⟩, -⟩
        · rw [c1, Py.lift_ok_bind]
          rcases checkConnected_cases ((y :: new).map s.store) with ⟨c3, c4⟩ | ⟨⟨e, c3⟩, -⟩
          · rw [c3, Py.lift_ok_bind, Py.modify_apply, Res.state_ok]
            refine ⟨h2, ?_, ?_⟩
            · intro i hi
              rcases List.mem_append.1 hi with hi | hi
              · exact ih.valid i hi
              · exact h3 i hi
            · simp only [ShState.list, List.map_append]
              rw [linked_append]
              refine ⟨ih.joined, linked_gap c4 fun i hi j hj => h4 i (by simp at hi ⊢; tauto) j hj, ?_⟩
              intro a b ha hb
              have hlast : (s.segs.map s.store).getLast? = some (s.store x) := by rw [List.getLast?_map, hl]; rfl
              rw [hlast] at ha; cases ha
              simp at hb; subst hb
              exact h4 x (by simp [hx]) y (by simp) (linked_cons.1 c2).1
          · rw [c3, Py.lift_error_bind]; exact ih
        · rw [c1, Py.lift_error_bind]; exact ih
  | addLines s fresh points _ hf ih =>
    have key := C47_add_lines fresh points s hf
    cases hr : addLineSegments fresh points s with
    | err e s' =>
      rw [hr] at key
      rw [Res.state_err, key.1]; exact ih
    | ok u s' =>
      rw [hr] at key
      simp only at key
      obtain ⟨-, hne, new, e1, hge, hnd, hst, hpoly, hlink⟩ := key
      rw [Res.state_ok]
      refine ⟨?_, ?_, hlink ε hε ih.joined⟩
      · rw [e1, List.nodup_append]
        refine ⟨ih.nodup, hnd, ?_⟩
        rintro i hi j hj rfl
        exact absurd (hf i hi) (not_lt.2 (hge i hj))
      · intro i hi
        rw [e1] at hi
        rcases List.mem_append.1 hi with hi | hi
        · rw [hst i (hf i hi)]; exact ih.valid i hi
        · exact (hpoly.valid hne _ (List.mem_map_of_mem hi)).1
  | translate s v _ ih =>
    obtain ⟨s', h1, -, h3, -⟩ := translation_moves v ih
    rw [h1]; exact h3
  | transform s m _ hm ih =>
    rcases hm with hm | ⟨rfl, hm, hl⟩
    · obtain ⟨s', h1, -, h3, -⟩ := iso_moves hm ih
      rw [h1]; exact h3
    · obtain ⟨s', h1, -, h3, -⟩ := linear_moves hm ih hl
      rw [h1]; exact h3
  | reflect s n d _ ih =>
    by_cases hn : vectorIsClose n 0
    · unfold applyReflection; rw [if_pos hn]; exact ih
    · obtain ⟨s', h1, -, h3, -⟩ := reflect_moves hn d ih
      rw [h1]; exact h3
  | reflectLine s a b _ ih =>
    by_cases hab : vectorIsClose a b
    · unfold applyReflectionAcrossLine; rw [if_pos hab]; exact ih
    · obtain ⟨s', h1, -, h3, -⟩ := C48_across_line hab ih
      rw [h1]; exact h3
  | other s store _ hs ih =>
    refine ⟨ih.nodup, fun i hi => by have := ih.valid i hi; simp only; rw [hs i hi]; exact this, ?_⟩
    rw [list_eq_of_store hs]; exact ih.joined

/-- The tolerance of the check at points with coordinates of at most `B`. -/
theorem C47_tolerance {a b : Seg} {B : ℝ} (h0 : |b.pointStart 0| ≤ B) (h1 : |b.pointStart 1| ≤ B) (h : Close a b) :
    Gap (2 * (1 / 1000000000 + 1 / 100000 * B)) a b := by
  unfold Gap
  obtain ⟨c0, c1⟩ := h
  unfold isclose at c0 c1
  have : len (a.pointEnd - b.pointStart) ≤ |a.pointEnd 0 - b.pointStart 0| + |a.pointEnd 1 - b.pointStart 1| := by
    unfold len
    rw [Real.sqrt_le_iff]
    refine ⟨by positivity, ?_⟩
    have e0 := abs_mul_abs_self (a.pointEnd 0 - b.pointStart 0)
    have e1 := abs_mul_abs_self (a.pointEnd 1 - b.pointStart 1)
    have p0 := abs_nonneg (a.pointEnd 0 - b.pointStart 0)
    have p1 := abs_nonneg (a.pointEnd 1 - b.pointStart 1)
    simp only [dot, Pi.sub_apply]
    nlinarith
  linarith

/-! ### counterexamples -/

/-- a line with its length -/
noncomputable def ln (a b : V) : Seg := .line a b (len (b - a))

theorem ln_valid {a b : V} (h : a ≠ b) : (ln a b).Valid := ⟨rfl, len_sub_pos.2 h⟩

theorem ne_of_coord {a b : V} (i : Fin 2) (h : a i ≠ b i) : a ≠ b := fun e => h (by rw [e])

theorem close_ln {a b c d : V} : Close (ln a b) (ln c d) ↔ vectorIsClose b c := by
  unfold Close ln; rw [line_end, line_start]

/-- **C47 (counterexample).** The tolerance of the check is relative. A shape that is accepted far away from the
origin is not connected any more after it has been moved to the origin. -/
theorem C47_tolerance_counterexample :
    ∃ (s s' : ShState) (v : V), mkShape s.store s.segs = .ok s ∧ s.segs.Nodup ∧ (∀ i ∈ s.segs, (s.store i).Valid) ∧
      applyTranslation v s = .ok () s' ∧ (∀ s'', mkShape s'.store s'.segs ≠ .ok s'') := by
  refine ⟨⟨fun i => if i = 0 then ln ![0, 0] ![1000, 0] else ln ![1000.005, 0] ![1000.005, 1], [0, 1]⟩, _, ![-1000, 0],
    ?_, by decide, ?_, rfl, ?_⟩
  · unfold mkShape
    rw [(checkConnected_iff _).2]
    · rfl
    · simp only [List.map_cons, List.map_nil, if_true, one_ne_zero, if_false]
      rw [linked_cons]
      refine ⟨?_, linked_one _⟩
      rw [close_ln]
      constructor
      · simp only [isclose, Matrix.cons_val_zero]; rw [abs_of_neg (by norm_num), abs_of_pos (by norm_num)]; norm_num
      · simp [isclose]
  · intro i hi
    simp only [List.mem_cons, List.not_mem_nil, or_false] at hi
    rcases hi with rfl | rfl
    · exact ln_valid (ne_of_coord 0 (by norm_num))
    · exact ln_valid (ne_of_coord 1 (by norm_num))
  · intro s'' hs
    have := (C47_construct _ _).1 ⟨s'', hs⟩
    simp only [List.foldl_cons, List.foldl_nil, List.map_cons, List.map_nil] at this
    rw [linked_cons] at this
    have h := this.1.1
    simp [Function.update, Seg.translate, ln, isclose] at h
    norm_num at h

/-- **C47 (counterexample).** A transformation that is rejected, because a segment would get the length zero, leaves a
shape that is not connected. -/
theorem C47_failed_transformation_counterexample :
    ∃ (s s' : ShState) (m : M) (e : GErr), s.Good 0 ∧ applyTransformation m s = .err e s' ∧
      (∀ s'', mkShape s'.store s'.segs ≠ .ok s'') := by
  have hlen : len (![1, 0] - ![1, 0] : V) = 0 := by rw [sub_self, len_eq_zero.2 rfl]
  have m1 : !![1, 0; 0, 0] *ᵥ (![0, 0] : V) = ![0, 0] := by rw [mulVec_two]; simp
  have m2 : !![1, 0; 0, 0] *ᵥ (![1, 1] : V) = ![1, 0] := by rw [mulVec_two]; simp
  have m3 : !![1, 0; 0, 0] *ᵥ (![1, 2] : V) = ![1, 0] := by rw [mulVec_two]; simp
  have hpos : ¬ len (![1, 0] - ![0, 0] : V) ≤ 0 := not_le.2 (len_sub_pos.2 (ne_of_coord 0 (by norm_num)))
  refine ⟨⟨fun i => if i = 0 then ln ![0, 0] ![1, 1] else if i = 1 then ln ![1, 1] ![1, 2] else ln ![1, 2] ![2, 2],
    [0, 1, 2]⟩, ⟨fun i => if i = 0 then ln ![0, 0] ![1, 0] else if i = 1 then .line ![1, 0] ![1, 0] (len (![1, 2] - ![1, 1]))
      else ln ![1, 2] ![2, 2], [0, 1, 2]⟩, !![1, 0; 0, 0], .valueError, ⟨by decide, ?_, ?_⟩, ?_, ?_⟩
  rotate_left 2
  · simp only [applyTransformation, transformAll, Seg.transform, ln, if_true, m1, m2, if_neg hpos, Function.update,
      one_ne_zero, if_false, dite_false, m3, if_pos hlen.le]
    congr 2
    funext i
    by_cases h1 : i = 1
    · subst h1; simp
    · by_cases h0 : i = 0
      · subst h0; simp
      · simp [h0, h1]
  · intro s'' hs
    have := (C47_construct _ _).1 ⟨s'', hs⟩
    simp only [List.map_cons, List.map_nil] at this
    rw [linked_cons, linked_cons] at this
    have h := this.2.1.2
    simp [isclose, ln, Function.update] at h
    norm_num at h
  · intro i hi
    simp only [List.mem_cons, List.not_mem_nil, or_false] at hi
    rcases hi with rfl | rfl | rfl
    · exact ln_valid (ne_of_coord 0 (by norm_num))
    · exact ln_valid (ne_of_coord 1 (by norm_num))
    · exact ln_valid (ne_of_coord 0 (by norm_num))
  · simp only [ShState.list, List.map_cons, List.map_nil]
    rw [linked_cons, linked_cons]
    refine ⟨?_, ?_, linked_one _⟩ <;> rw [gap_zero] <;> simp [Joined, ln]

/-- **C47 (counterexample).** A shape can contain the same object several times. Such a shape is not connected after a
translation, since the object is moved several times. -/
theorem C47_same_object_counterexample :
    ∃ (s s' : ShState) (v : V), mkShape s.store s.segs = .ok s ∧ (∀ i ∈ s.segs, (s.store i).Valid) ∧
      applyTranslation v s = .ok () s' ∧ (∀ s'', mkShape s'.store s'.segs ≠ .ok s'') := by
  refine ⟨⟨fun i => if i = 0 then ln ![0, 0] ![1, 0] else ln ![1, 0] ![0, 0], [0, 1, 0]⟩, _, ![1, 0], ?_, ?_, rfl, ?_⟩
  · unfold mkShape
    rw [(checkConnected_iff _).2]
    · rfl
    · simp only [List.map_cons, List.map_nil, if_true, one_ne_zero, if_false]
      rw [linked_cons, linked_cons]
      refine ⟨?_, ?_, linked_one _⟩ <;> rw [close_ln] <;> exact vectorIsClose_refl _
  · intro i hi
    simp only [List.mem_cons, List.not_mem_nil, or_false] at hi
    rcases hi with rfl | rfl | rfl <;> exact ln_valid (ne_of_coord 0 (by norm_num))
  · intro s'' hs
    have := (C47_construct _ _).1 ⟨s'', hs⟩
    simp only [List.foldl_cons, List.foldl_nil, List.map_cons, List.map_nil] at this
    rw [linked_cons] at this
    have h := this.1.1
    simp [Function.update, Seg.translate, ln, isclose] at h
    norm_num at h

/-! ### examples -/

/-- a shape that is drawn, moved and reflected -/
example : ∃ s : ShState, Reach 0 s ∧ s.segs.length = 2 := by
  have h0 : Reach 0 ⟨fun _ => ln 0 0, []⟩ :=
    Reach.construct _ [] _ rfl List.nodup_nil (by simp) (by simp)
  have h1 := Reach.addLines _ 0 [![0, 0], ![1, 0], ![1, 1]] h0 (by simp)
  have key := C47_add_lines 0 [![0, 0], ![1, 0], ![1, 1]] ⟨fun _ => ln 0 0, []⟩ (by simp)
  have hc : ShState.continued ⟨fun _ => ln 0 0, []⟩ [![0, 0], ![1, 0], ![1, 1]] = [![0, 0], ![1, 0], ![1, 1]] := by
    simp [ShState.continued]
  cases hr : addLineSegments 0 [![0, 0], ![1, 0], ![1, 1]] ⟨fun _ => ln 0 0, []⟩ with
  | err e s' =>
    rw [hr, hc] at key
    rcases key.2 with h | h
    · simp at h
    · exact absurd (linked_cons.2 ⟨ne_of_coord 0 (by norm_num), linked_cons.2 ⟨ne_of_coord 1 (by norm_num), linked_one _⟩⟩) h
  | ok u s' =>
    rw [hr, hc] at key
    rw [hr] at h1
    obtain ⟨-, -, new, e1, -, -, -, hp, -⟩ := key
    have h2 := Reach.translate _ ![3, 4] h1
    have h3 := Reach.reflect _ ![1, 1] 2 h2
    have g1 := C47_history_partial le_rfl h1
    have g2 := C47_history_partial le_rfl h2
    refine ⟨_, h3, ?_⟩
    have hn : ¬ vectorIsClose (![1, 1] : V) 0 := by
      rintro ⟨h, -⟩
      simp [isclose] at h; norm_num at h
    obtain ⟨s3, a1, a2, -⟩ := C48_reflection hn 2 g2
    obtain ⟨s2, b1, b2, -⟩ := translation_moves ![3, 4] g1
    rw [a1, Res.state_ok, a2, b1, Res.state_ok, b2.1]
    have := hp.count
    simp at this
    rw [Res.state_ok, e1]; simpa using this

end Weldx.Geo
