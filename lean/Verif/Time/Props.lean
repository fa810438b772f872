import Verif.Time.Model
import Mathlib.Data.List.Pairwise
import Mathlib.Tactic.Ring
import Mathlib.Tactic.Linarith

/-!
# C24 - C27: times
-/

set_option linter.unusedSimpArgs false

namespace Weldx.Time

/-- A time as every constructor call creates it: sorted values, and only absolute times remember a
reference time. -/
structure Valid (t : Time) : Prop where
  sorted : t.vals.Pairwise (· ≤ ·)
  ref_abs : t.abs = false → t.ref = none

/-- reference time in the sense of the documentation: the given one or the first value -/
def HasRef (t : Time) (r : Int) : Prop :=
  t.abs = true ∧ (t.ref = some r ∨ (t.ref = none ∧ t.vals.head? = some r))

/-! ### helpers -/

theorem monotonic_foldl (l : List Int) (b : Bool) (a : Int) :
    (l.foldl (fun (acc : Bool × Int) x => (acc.1 && decide (acc.2 ≤ x), x)) (b, a)).1 = true ↔
      b = true ∧ (a :: l).Pairwise (· ≤ ·) := by
  induction l generalizing b a with
  | nil => simp
  | cons x t ih =>
    simp only [List.foldl_cons]
    rw [ih]
    simp only [Bool.and_eq_true, decide_eq_true_eq, List.pairwise_cons, List.mem_cons,
      forall_eq_or_imp]
    constructor
    · rintro ⟨⟨h1, h2⟩, h3, h4⟩
      exact ⟨h1, ⟨h2, fun y hy => h2.trans (h3 y hy)⟩, h3, h4⟩
    · rintro ⟨h1, ⟨h2, _⟩, h3, h4⟩
      exact ⟨⟨h1, h2⟩, h3, h4⟩

theorem monotonic_iff (l : List Int) : monotonic l = true ↔ l.Pairwise (· ≤ ·) := by
  cases l with
  | nil => simp [monotonic]
  | cons a t => rw [monotonic, monotonic_foldl]; simp

theorem make_rel {vals : List Int} {ref : Option Int} {t : Time} :
    make false vals ref = .ok t ↔ vals.Pairwise (· ≤ ·) ∧
      t = (match ref with | none => ⟨false, vals, none⟩ | some r => ⟨true, vals.map (· + r), some r⟩) := by
  cases ref with
  | none =>
    simp only [make]
    by_cases h : monotonic vals = true
    · rw [if_pos h]; simp [(monotonic_iff _).1 h, eq_comm]
    · rw [if_neg h]; simp; intro h'; exact absurd ((monotonic_iff _).2 h') h
  | some r =>
    simp only [make, Bool.false_eq_true, if_false]
    have hp : (vals.map (· + r)).Pairwise (· ≤ ·) ↔ vals.Pairwise (· ≤ ·) := by
      rw [List.pairwise_map]; simp
    by_cases h : monotonic (vals.map (· + r)) = true
    · rw [if_pos h]; simp [hp.1 ((monotonic_iff _).1 h), eq_comm]
    · rw [if_neg h]; simp; intro h'; exact absurd ((monotonic_iff _).2 (hp.2 h')) h

theorem make_abs {vals : List Int} {ref : Option Int} {t : Time} :
    make true vals ref = .ok t ↔ vals.Pairwise (· ≤ ·) ∧ t = ⟨true, vals, ref⟩ := by
  have : make true vals ref = if monotonic vals then .ok ⟨true, vals, ref⟩ else .error .valueError := by
    cases ref <;> rfl
  rw [this]
  by_cases h : monotonic vals = true
  · rw [if_pos h]; simp [(monotonic_iff _).1 h, eq_comm]
  · rw [if_neg h]; simp; intro h'; exact absurd ((monotonic_iff _).2 h') h

theorem ofTime_valid {t : Time} (h : t.Valid) : t.ofTime none = .ok t := by
  obtain ⟨a, v, r⟩ := t
  cases a with
  | true => exact make_abs.2 ⟨h.sorted, rfl⟩
  | false =>
    have : r = none := h.ref_abs rfl
    subst this
    exact make_rel.2 ⟨h.sorted, rfl⟩

theorem referenceTime_iff {t : Time} {r : Int} : t.referenceTime = .ok (some r) ↔ t.HasRef r := by
  obtain ⟨a, v, s⟩ := t
  cases a <;> cases s <;> cases v <;> simp [referenceTime, HasRef]

theorem referenceTime_rel {t : Time} (h : t.abs = false) : t.referenceTime = .ok none := by
  simp [referenceTime, h]

theorem HasRef.exists {t : Time} (h : t.abs = true) (hv : t.vals ≠ []) : ∃ r, t.HasRef r := by
  obtain ⟨a, v, s⟩ := t
  subst h
  cases s with
  | some r => exact ⟨r, rfl, .inl rfl⟩
  | none =>
    cases v with
    | nil => exact absurd rfl hv
    | cons x _ => exact ⟨x, rfl, .inr ⟨rfl, rfl⟩⟩

/-! ### C24 -/

theorem unionVals_count (xs ys : List Int) (hx : xs.Pairwise (· ≤ ·)) (hy : ys.Pairwise (· ≤ ·))
    (a : Int) : (unionVals xs ys).count a = max (xs.count a) (ys.count a) := by
  induction xs, ys using unionVals.induct with
  | case1 ys => simp [unionVals]
  | case2 xs h => cases xs <;> simp [unionVals] at *
  | case3 x xs y ys h ih =>
    rw [unionVals, if_pos h]
    rw [List.pairwise_cons] at hx
    rw [List.count_cons, ih hx.2 hy, List.count_cons (l := xs)]
    by_cases hxa : x = a
    · subst hxa
      have : (y :: ys).count x = 0 := List.count_eq_zero.2 fun hm => by
        rcases List.mem_cons.1 hm with rfl | hm
        · omega
        · have := (List.pairwise_cons.1 hy).1 _ hm; omega
      simp [this]
    · simp [hxa]
  | case4 x xs y ys h h' ih =>
    rw [unionVals, if_neg h, if_pos h']
    rw [List.pairwise_cons] at hy
    rw [List.count_cons, ih hx hy.2, List.count_cons (l := ys)]
    by_cases hya : y = a
    · subst hya
      have : (x :: xs).count y = 0 := List.count_eq_zero.2 fun hm => by
        rcases List.mem_cons.1 hm with rfl | hm
        · omega
        · have := (List.pairwise_cons.1 hx).1 _ hm; omega
      simp [this]
    · simp [hya]
  | case5 x xs y ys h h' ih =>
    rw [unionVals, if_neg h, if_neg h']
    have hxy : x = y := by omega
    subst hxy
    rw [List.count_cons, ih (List.pairwise_cons.1 hx).2 (List.pairwise_cons.1 hy).2,
      List.count_cons (l := xs), List.count_cons (l := ys)]
    split <;> omega

theorem mem_unionVals {xs ys : List Int} (hx : xs.Pairwise (· ≤ ·)) (hy : ys.Pairwise (· ≤ ·))
    {a : Int} : a ∈ unionVals xs ys ↔ a ∈ xs ∨ a ∈ ys := by
  rw [← List.count_pos_iff, unionVals_count xs ys hx hy, ← List.count_pos_iff, ← List.count_pos_iff]
  omega

theorem unionVals_sorted (xs ys : List Int) (hx : xs.Pairwise (· ≤ ·)) (hy : ys.Pairwise (· ≤ ·)) :
    (unionVals xs ys).Pairwise (· ≤ ·) := by
  induction xs, ys using unionVals.induct with
  | case1 ys => simpa [unionVals] using hy
  | case2 xs h => cases xs <;> simp [unionVals] at * <;> exact hx
  | case3 x xs y ys h ih =>
    rw [unionVals, if_pos h]
    obtain ⟨h1, h2⟩ := List.pairwise_cons.1 hx
    refine List.pairwise_cons.2 ⟨fun a ha => ?_, ih h2 hy⟩
    rcases (mem_unionVals h2 hy).1 ha with ha | ha
    · exact h1 a ha
    · rcases List.mem_cons.1 ha with rfl | ha
      · omega
      · have := (List.pairwise_cons.1 hy).1 a ha; omega
  | case4 x xs y ys h h' ih =>
    rw [unionVals, if_neg h, if_pos h']
    obtain ⟨h1, h2⟩ := List.pairwise_cons.1 hy
    refine List.pairwise_cons.2 ⟨fun a ha => ?_, ih hx h2⟩
    rcases (mem_unionVals hx h2).1 ha with ha | ha
    · rcases List.mem_cons.1 ha with rfl | ha
      · omega
      · have := (List.pairwise_cons.1 hx).1 a ha; omega
    · exact h1 a ha
  | case5 x xs y ys h h' ih =>
    rw [unionVals, if_neg h, if_neg h']
    obtain ⟨h1, h2⟩ := List.pairwise_cons.1 hx
    obtain ⟨h3, h4⟩ := List.pairwise_cons.1 hy
    refine List.pairwise_cons.2 ⟨fun a ha => ?_, ih h2 h4⟩
    rcases (mem_unionVals h2 h4).1 ha with ha | ha
    · exact h1 a ha
    · have := h3 a ha; omega

/-- largest number of repetitions of a value in one of the times -/
def maxCount (ts : List Time) (a : Int) : Nat := (ts.map fun t => t.vals.count a).foldr max 0

theorem unionLoop_spec (abs : Bool) : ∀ (ts : List Time) (acc : List Int), acc.Pairwise (· ≤ ·) →
    (∀ t ∈ ts, t.Valid ∧ t.abs = abs) → ∃ v, unionLoop abs acc ts = .ok v ∧ v.Pairwise (· ≤ ·) ∧
      ∀ a, v.count a = max (acc.count a) (maxCount ts a) := by
  intro ts
  induction ts with
  | nil => intro acc h _; exact ⟨acc, rfl, h, by simp [maxCount]⟩
  | cons t ts ih =>
    intro acc h ht
    have h1 := ht t (by simp)
    obtain ⟨v, hv, hs, hc⟩ := ih (unionVals acc t.vals) (unionVals_sorted _ _ h h1.1.sorted)
      fun t ht' => ht t (by simp [ht'])
    refine ⟨v, by rw [unionLoop, if_pos h1.2, hv], hs, fun a => ?_⟩
    rw [hc, unionVals_count _ _ h h1.1.sorted]
    simp only [maxCount, List.map_cons, List.foldr_cons]
    omega

theorem mapM_valid : ∀ ts : List Time, (∀ t ∈ ts, t.Valid) → ts.mapM (fun t => t.ofTime none) = .ok ts := by
  intro ts
  induction ts with
  | nil => intro _; rfl
  | cons t ts ih =>
    intro h
    rw [List.mapM_cons, ofTime_valid (h t (by simp)), ih fun t ht => h t (by simp [ht])]
    rfl

/-- **C24.** The union of valid times of one kind succeeds; the result is sorted, of the same kind,
without stored reference time, and each value occurs as often as in the argument that has it most
often. -/
theorem C24_union {ts : List Time} {abs : Bool} (hne : ts ≠ []) (h : ∀ t ∈ ts, t.Valid ∧ t.abs = abs) :
    ∃ u, union ts = .ok u ∧ u.Valid ∧ u.abs = abs ∧ u.ref = none ∧
      ∀ a, u.vals.count a = maxCount ts a := by
  match ts, hne with
  | t :: ts, _ =>
    have h1 := h t (by simp)
    obtain ⟨v, hv, hs, hc⟩ := unionLoop_spec t.abs ts t.vals h1.1.sorted fun t' ht' => by
      have := h t' (by simp [ht']); exact ⟨this.1, this.2.trans h1.2.symm⟩
    have hmk : make t.abs v none = .ok ⟨t.abs, v, none⟩ := by
      cases t.abs with
      | true => exact make_abs.2 ⟨hs, rfl⟩
      | false => exact make_rel.2 ⟨hs, rfl⟩
    refine ⟨⟨t.abs, v, none⟩, ?_, ⟨hs, fun _ => rfl⟩, h1.2, rfl, fun a => ?_⟩
    · simp only [union, mapM_valid (t :: ts) fun t ht => (h t ht).1]
      show (unionLoop t.abs t.vals ts >>= fun v => make t.abs v none) = _
      rw [hv]; exact hmk
    · rw [hc]; simp [maxCount]

theorem maxCount_pos {ts : List Time} {a : Int} : 0 < maxCount ts a ↔ ∃ t ∈ ts, a ∈ t.vals := by
  induction ts with
  | nil => simp [maxCount]
  | cons t ts ih =>
    have : maxCount (t :: ts) a = max (t.vals.count a) (maxCount ts a) := rfl
    rw [this, lt_max_iff, List.count_pos_iff, ih]
    simp

/-- **C24.** The union contains exactly the points in time of the arguments, in order. If the arguments
have no repeated values, neither has the union. -/
theorem C24_union_values {ts : List Time} {u : Time} {abs : Bool}
    (h : ∀ t ∈ ts, t.Valid ∧ t.abs = abs) (hu : union ts = .ok u) :
    (∀ a, a ∈ u.vals ↔ ∃ t ∈ ts, a ∈ t.vals) ∧ u.vals.Pairwise (· ≤ ·) ∧
    ((∀ t ∈ ts, t.vals.Nodup) → u.vals.Pairwise (· < ·)) := by
  have hne : ts ≠ [] := by rintro rfl; simp [union] at hu
  obtain ⟨u', hu', hv, _, _, hc⟩ := C24_union hne h
  rw [hu] at hu'; cases hu'
  refine ⟨fun a => by rw [← List.count_pos_iff, hc, maxCount_pos], hv.sorted, fun hn => ?_⟩
  have hnd : u.vals.Nodup := by
    rw [List.nodup_iff_count_le_one]
    intro a
    rw [hc]
    have : ∀ ts : List Time, (∀ t ∈ ts, t.vals.Nodup) → maxCount ts a ≤ 1 := by
      intro ts
      induction ts with
      | nil => simp [maxCount]
      | cons t ts ih =>
        intro hn
        have h1 := ih fun t ht => hn t (by simp [ht])
        have h2 := List.nodup_iff_count_le_one.1 (hn t (by simp)) a
        have : maxCount (t :: ts) a = max (t.vals.count a) (maxCount ts a) := rfl
        omega
    exact this ts hn
  have := hv.sorted.and hnd
  exact this.imp fun ⟨h1, h2⟩ => by omega

/-- **C24.** The union called as method contains the values of the object itself and those of the passed ones. -/
theorem C24_union_instance {t : Time} {ts : List Time} {abs : Bool} (h : ∀ u ∈ t :: ts, u.Valid ∧ u.abs = abs) :
    ∃ u, t.unionInstance ts = .ok u ∧ u.abs = abs ∧ ∀ a, a ∈ u.vals ↔ a ∈ t.vals ∨ ∃ s ∈ ts, a ∈ s.vals := by
  obtain ⟨u, hu, _, h1, _⟩ := C24_union (by simp) h
  refine ⟨u, hu, h1, fun a => ?_⟩
  rw [(C24_union_values h hu).1 a]; simp

/-- the values of the object are not among those of the argument -/
example : ∃ u, (⟨false, [1, 4], none⟩ : Time).unionInstance [⟨false, [2, 4], none⟩] = .ok u ∧ u.abs = false ∧
    ∀ a, a ∈ u.vals ↔ a ∈ [1, 4] ∨ ∃ s ∈ [(⟨false, [2, 4], none⟩ : Time)], a ∈ s.vals :=
  C24_union_instance (by
    intro u hu
    simp only [List.mem_cons, List.not_mem_nil, or_false] at hu
    rcases hu with rfl | rfl <;> exact ⟨⟨by decide, fun _ => rfl⟩, rfl⟩)

theorem maxCount_append (ts us : List Time) (a : Int) :
    maxCount (ts ++ us) a = max (maxCount ts a) (maxCount us a) := by
  induction ts with
  | nil => simp [maxCount]
  | cons t ts ih =>
    have h1 : maxCount (t :: (ts ++ us)) a = max (t.vals.count a) (maxCount (ts ++ us) a) := rfl
    have h2 : maxCount (t :: ts) a = max (t.vals.count a) (maxCount ts a) := rfl
    rw [List.cons_append, h1, h2, ih]; omega

theorem maxCount_perm {ts us : List Time} (h : ts.Perm us) (a : Int) :
    maxCount ts a = maxCount us a := by
  induction h with
  | nil => rfl
  | cons x _ ih =>
    show max _ (maxCount _ a) = max _ (maxCount _ a)
    rw [ih]
  | swap x y l =>
    show max _ (max _ (maxCount l a)) = max _ (max _ (maxCount l a))
    omega
  | trans _ _ h1 h2 => rw [h1, h2]

theorem sorted_unique {l l' : List Int} (h : l.Pairwise (· ≤ ·)) (h' : l'.Pairwise (· ≤ ·))
    (hc : ∀ a, l.count a = l'.count a) : l = l' :=
  (List.perm_iff_count.2 hc).eq_of_pairwise (fun a b _ _ h1 h2 => le_antisymm h1 h2) h h'

/-- **C24.** The union does not depend on the order of the arguments and partial unions can be formed
first. -/
theorem C24_union_order_grouping {ts us : List Time} {u : Time} {abs : Bool} (hne : ts ≠ [])
    (h : ∀ t ∈ ts, t.Valid ∧ t.abs = abs) (h' : ∀ t ∈ us, t.Valid ∧ t.abs = abs)
    (hu : union ts = .ok u) :
    (∀ ts', ts.Perm ts' → union ts' = .ok u) ∧ union (ts ++ us) = union (u :: us) := by
  obtain ⟨u0, hu0, hv, ha, hr, hc⟩ := C24_union hne h
  rw [hu] at hu0; cases hu0
  have ext : ∀ v : Time, v.Valid → v.abs = abs → v.ref = none → ∀ w : Time, w.Valid → w.abs = abs →
      w.ref = none → (∀ a, v.vals.count a = w.vals.count a) → v = w := by
    intro v h1 h2 h3 w h4 h5 h6 h7
    have := sorted_unique h1.sorted h4.sorted h7
    obtain ⟨va, vv, vr⟩ := v
    obtain ⟨wa, wv, wr⟩ := w
    simp_all
  refine ⟨fun ts' hp => ?_, ?_⟩
  · obtain ⟨w, hw, h1, h2, h3, h4⟩ := C24_union (ts := ts') (abs := abs)
      (fun e => hne (by subst e; exact hp.eq_nil)) fun t ht => h t (hp.mem_iff.2 ht)
    rw [hw, ext w h1 h2 h3 u hv ha hr fun a => by rw [h4, hc, maxCount_perm hp]]
  · obtain ⟨w, hw, h1, h2, h3, h4⟩ := C24_union (ts := ts ++ us) (abs := abs) (by simp [hne])
      fun t ht => (List.mem_append.1 ht).elim (h t) (h' t)
    obtain ⟨w', hw', h1', h2', h3', h4'⟩ := C24_union (ts := u :: us) (abs := abs) (by simp)
      fun t ht => by
        rcases List.mem_cons.1 ht with rfl | ht
        · exact ⟨hv, ha⟩
        · exact h' t ht
    rw [hw, hw', ext w h1 h2 h3 w' h1' h2' h3' fun a => ?_]
    rw [h4, h4', maxCount_append]
    show _ = max (u.vals.count a) (maxCount us a)
    rw [hc]

/-- **C24.** Joining time stamps with time deltas is rejected. -/
theorem C24_union_mixed {ts : List Time} (h : ∀ t ∈ ts, t.Valid) {t u : Time} (ht : t ∈ ts)
    (hu : u ∈ ts) (hm : t.abs ≠ u.abs) : union ts = .error .typeError := by
  have key : ∀ (abs : Bool) (ts : List Time) (acc : List Int), (∃ t ∈ ts, t.abs ≠ abs) →
      unionLoop abs acc ts = .error .typeError := by
    intro abs ts
    induction ts with
    | nil => rintro _ ⟨t, h, _⟩; cases h
    | cons t ts ih =>
      rintro acc ⟨s, hs, hsa⟩
      rw [unionLoop]
      by_cases hta : t.abs = abs
      · rw [if_pos hta]
        refine ih _ ⟨s, ?_, hsa⟩
        rcases List.mem_cons.1 hs with rfl | hs
        · exact absurd hta hsa
        · exact hs
      · rw [if_neg hta]
  match ts with
  | [] => cases ht
  | s :: ts =>
    simp only [union, mapM_valid _ h]
    show (unionLoop s.abs s.vals ts >>= fun v => make s.abs v none) = _
    rw [key]
    · rfl
    · rcases List.mem_cons.1 ht with rfl | ht
      · rcases List.mem_cons.1 hu with rfl | hu
        · exact absurd rfl hm
        · exact ⟨u, hu, fun e => hm e.symm⟩
      · by_cases he : t.abs = s.abs
        · rcases List.mem_cons.1 hu with rfl | hu
          · exact absurd he hm
          · exact ⟨u, hu, fun e => hm (he.trans e.symm)⟩
        · exact ⟨t, ht, he⟩

example : union [⟨false, [1, 3, 4], none⟩, ⟨false, [2, 4, 5], none⟩, ⟨false, [3, 3], none⟩] =
    .ok ⟨false, [1, 2, 3, 3, 4, 5], none⟩ := by
  simp [union, ofTime, make, monotonic, unionLoop, unionVals, bind, Except.bind, pure, Except.pure]
example : (⟨false, [1, 3, 4], none⟩ : Time).Valid := ⟨by decide, fun _ => rfl⟩

/-! ### C25 -/

theorem linspace_spec {t0 t1 : Int} {n : Nat} (hn : 2 ≤ n) (h : t0 ≤ t1) :
    (linspace t0 t1 n).length = n ∧ (linspace t0 t1 n).head? = some t0 ∧
    (linspace t0 t1 n).getLast? = some t1 ∧ (linspace t0 t1 n).Pairwise (· ≤ ·) := by
  obtain ⟨k, rfl⟩ : ∃ k, n = k + 2 := ⟨n - 2, by omega⟩
  have hk : ((k + 2 : ℕ) : Int) - 1 = k + 1 := by push_cast; ring
  refine ⟨by simp [linspace], ?_, ?_, ?_⟩
  · simp only [linspace, hk]
    rw [List.range_succ_eq_map]
    simp only [List.map_cons, List.head?_cons, Option.some.injEq]
    simp only [Nat.cast_zero, zero_mul, add_zero]
    exact Int.mul_tdiv_cancel _ (by omega)
  · simp only [linspace, hk]
    rw [List.range_succ]
    simp only [List.map_append, List.map_cons, List.map_nil, List.getLast?_append_cons,
      List.getLast?_singleton, Option.some.injEq]
    have : t0 * ((k : Int) + 1) + ((k + 1 : ℕ) : Int) * (t1 - t0) = t1 * ((k : Int) + 1) := by
      push_cast; ring
    rw [this]
    exact Int.mul_tdiv_cancel _ (by omega)
  · simp only [linspace, hk]
    rw [List.pairwise_map]
    refine List.pairwise_lt_range.imp fun {a b} hab => ?_
    refine Int.tdiv_le_tdiv (by omega) ?_
    have : (a : Int) * (t1 - t0) ≤ b * (t1 - t0) := mul_le_mul_of_nonneg_right (by omega) (by omega)
    omega

theorem linspace_dist {t0 t1 : Int} {n i : Nat} (hi : i < n) (h : t0 ≤ t1) (hn : 2 ≤ n) :
    ∃ v, (linspace t0 t1 n)[i]? = some v ∧
      |v * ((n : Int) - 1) - (t0 * ((n : Int) - 1) + i * (t1 - t0))| < (n : Int) - 1 := by
  refine ⟨(t0 * ((n : Int) - 1) + i * (t1 - t0)).tdiv ((n : Int) - 1), by simp [linspace, hi], ?_⟩
  set N := t0 * ((n : Int) - 1) + i * (t1 - t0)
  have h1 := Int.mul_tdiv_add_tmod N ((n : Int) - 1)
  have h2 := Int.natAbs_tmod N ((n : Int) - 1)
  have h3 : |Int.tmod N ((n : Int) - 1)| < (n : Int) - 1 := by
    rw [← Int.natCast_natAbs, h2]
    have : N.natAbs % ((n : Int) - 1).natAbs < ((n : Int) - 1).natAbs := Nat.mod_lt _ (by omega)
    omega
  have h4 : N.tdiv ((n : Int) - 1) * ((n : Int) - 1) - N = -(Int.tmod N ((n : Int) - 1)) := by
    rw [mul_comm]; omega
  rw [h4, abs_neg]; exact h3

theorem arange_get {t0 t1 f : Int} (i : Nat) (hi : i ≤ ((t1 - t0) / f).toNat) :
    (arange t0 t1 f)[i]? = some (t0 + i * f) := by
  simp [arange, Nat.lt_succ_of_le hi]

theorem arange_length {t0 t1 f : Int} : (arange t0 t1 f).length = ((t1 - t0) / f).toNat + 1 := by
  simp [arange]

theorem arange_last {t0 t1 f : Int} : (arange t0 t1 f).getLast? =
    some (t0 + (((t1 - t0) / f).toNat : Int) * f) := by
  rw [List.getLast?_eq_getElem?, arange_length, Nat.add_sub_cancel, arange_get _ le_rfl]

theorem arange_sorted {t0 t1 f : Int} (hf : 0 < f) : (arange t0 t1 f).Pairwise (· ≤ ·) := by
  rw [arange, List.pairwise_map]
  refine List.pairwise_lt_range.imp fun {a b} hab => ?_
  have : (a : Int) * f ≤ b * f := mul_le_mul_of_nonneg_right (by omega) (by omega)
  omega

theorem sorted_min_max {l : List Int} (hs : l.Pairwise (· ≤ ·)) {a b : Int} (ha : l.head? = some a)
    (hb : l.getLast? = some b) : l.min? = some a ∧ l.max? = some b ∧ ∀ x ∈ l, a ≤ x ∧ x ≤ b := by
  have hma : a ∈ l := List.mem_of_mem_head? ha
  have hmb : b ∈ l := List.mem_of_getLast? hb
  have h1 : ∀ x ∈ l, a ≤ x := by
    match l, ha with
    | y :: l, ha =>
      simp only [List.head?_cons, Option.some.injEq] at ha
      subst ha
      intro x hx
      rcases List.mem_cons.1 hx with rfl | hx
      · exact le_rfl
      · exact (List.pairwise_cons.1 hs).1 x hx
  have h2 : ∀ x ∈ l, x ≤ b := by
    obtain ⟨l', rfl⟩ := List.getLast?_eq_some_iff.1 hb
    rw [List.pairwise_append] at hs
    intro x hx
    rcases List.mem_append.1 hx with hx | hx
    · exact hs.2.2 x hx b (by simp)
    · simp at hx; omega
  exact ⟨List.min?_eq_some_iff.2 ⟨hma, h1⟩, List.max?_eq_some_iff.2 ⟨hmb, h2⟩, fun x hx => ⟨h1 x hx, h2 x hx⟩⟩

/-- offset of the stored values against the time deltas -/
def offset (t : Time) : Int := match t.referenceTime with
  | .ok (some r) => r
  | _ => 0

theorem asTimedelta_eq {t : Time} (hne : t.vals ≠ []) :
    t.asTimedelta = .ok (t.vals.map (· - t.offset)) := by
  obtain ⟨a, v, r⟩ := t
  cases a with
  | false => simp [asTimedelta, offset, referenceTime]
  | true =>
    obtain ⟨r', hr⟩ := HasRef.exists (t := ⟨true, v, r⟩) rfl hne
    have := referenceTime_iff.2 hr
    simp [asTimedelta, offset, this, bind, Except.bind]

theorem make_offset {t : Time} (hne : t.vals ≠ []) {l : List Int} (hl : l.Pairwise (· ≤ ·)) :
    ∃ ro, t.referenceTime = .ok ro ∧ ∃ u, make false l ro = .ok u ∧ u.abs = t.abs ∧ u.Valid ∧
      u.vals = l.map (· + t.offset) ∧ ∀ r, t.HasRef r → u.ref = some r := by
  obtain ⟨a, v, r⟩ := t
  cases a with
  | false =>
    refine ⟨none, referenceTime_rel rfl, _, make_rel.2 ⟨hl, rfl⟩, rfl, ⟨hl, fun _ => rfl⟩, ?_, ?_⟩
    · simp [offset, referenceTime]
    · rintro r ⟨h, _⟩; cases h
  | true =>
    obtain ⟨r', hr⟩ := HasRef.exists (t := ⟨true, v, r⟩) rfl hne
    have := referenceTime_iff.2 hr
    refine ⟨some r', this, _, make_rel.2 ⟨hl, rfl⟩, rfl, ⟨?_, fun h => by cases h⟩, ?_, ?_⟩
    · show (l.map (· + r')).Pairwise _
      rw [List.pairwise_map]; simpa using hl
    · simp [offset, this]
    · intro s hs
      have h2 := referenceTime_iff.2 hs
      rw [this] at h2
      simpa using h2

/-- The common part of `resample`. -/
theorem resample_eq {t : Time} (hv : t.Valid) {a b : Int} (hl : 2 ≤ t.vals.length)
    (ha : t.vals.head? = some a) (hb : t.vals.getLast? = some b) (r : Resampling) {l : List Int}
    (h : (match r with
        | .number n => if n < 2 then Except.error TimeError.valueError
          else .ok (linspace (a - t.offset) (b - t.offset) n.toNat)
        | .interval f => if f ≤ 0 then .error .valueError
          else .ok (arange (a - t.offset) (b - t.offset) f)) = .ok l)
    (hs : (if l.getLast? = some (b - t.offset) then l else l ++ [b - t.offset]).Pairwise (· ≤ ·)) :
    ∃ u, t.resample r = .ok u ∧ u.abs = t.abs ∧ u.Valid ∧
      u.vals = (if l.getLast? = some (b - t.offset) then l else l ++ [b - t.offset]).map (· + t.offset) ∧
      ∀ r, t.HasRef r → u.ref = some r := by
  have hne : t.vals ≠ [] := by intro e; rw [e] at hl; simp at hl
  obtain ⟨ro, hro, u, hu, h1, h2, h3, h4⟩ := make_offset hne hs
  refine ⟨u, ?_, h1, h2, h3, h4⟩
  have hmm := sorted_min_max (l := t.vals.map (· - t.offset)) (a := a - t.offset) (b := b - t.offset)
    (by rw [List.pairwise_map]; simpa using hv.sorted) (by simp [ha]) (by simp [hb])
  have hlen : ¬ t.vals.length ≤ 1 := by omega
  rw [resample, if_neg hlen, asTimedelta_eq hne]
  show (match (t.vals.map (· - t.offset)).min?, (t.vals.map (· - t.offset)).max? with
    | some t0, some t1 => _
    | _, _ => _) = _
  rw [hmm.1, hmm.2.1]
  cases r with
  | number n =>
    dsimp only at h ⊢
    split at h
    · cases h
    · rename_i hc
      cases h
      rw [if_neg hc, hro]; exact hu
  | interval f =>
    dsimp only at h ⊢
    split at h
    · cases h
    · rename_i hc
      cases h
      rw [if_neg hc, hro]; exact hu

/-- **C25.** Resampling with a number `n ≥ 2` returns a time of the same kind and with the same reference
time, that has exactly `n` values, is sorted, starts with the first and ends with the last original value,
does not leave the original range and divides it evenly: the `i`-th value deviates less than one
nanosecond from `a + i * (b - a) / (n - 1)`. -/
theorem C25_resample_number {t : Time} (hv : t.Valid) {a b : Int} (hl : 2 ≤ t.vals.length)
    (ha : t.vals.head? = some a) (hb : t.vals.getLast? = some b) {n : Int} (hn : 2 ≤ n) :
    ∃ u, t.resample (.number n) = .ok u ∧ u.abs = t.abs ∧ u.Valid ∧ (∀ r, t.HasRef r → u.HasRef r) ∧
      u.vals.length = n ∧ u.vals.head? = some a ∧ u.vals.getLast? = some b ∧
      (∀ x ∈ u.vals, a ≤ x ∧ x ≤ b) ∧
      ∀ i : Nat, i < n → ∃ v, u.vals[i]? = some v ∧ |v * (n - 1) - (a * (n - 1) + i * (b - a))| < n - 1 := by
  obtain ⟨k, rfl⟩ : ∃ k : Nat, n = k := ⟨n.toNat, by omega⟩
  have hk : 2 ≤ k := by omega
  have hab : a ≤ b := ((sorted_min_max hv.sorted ha hb).2.2 b (List.mem_of_getLast? hb)).1
  obtain ⟨h1, h2, h3, h4⟩ := linspace_spec (t0 := a - t.offset) (t1 := b - t.offset) hk (by omega)
  obtain ⟨u, hu, hua, huv, hul, hur⟩ := resample_eq hv hl ha hb (.number k)
    (l := linspace (a - t.offset) (b - t.offset) k)
    (by simp; omega) (by rw [if_pos h3]; exact h4)
  rw [if_pos h3] at hul
  have hh : u.vals.head? = some a := by rw [hul]; simp [h2]
  have hg : u.vals.getLast? = some b := by rw [hul]; simp [h3]
  refine ⟨u, hu, hua, huv, fun r hr => ⟨hua.trans hr.1, .inl (hur r hr)⟩, by rw [hul]; simp [h1], hh, hg,
    (sorted_min_max huv.sorted hh hg).2.2, fun i hi => ?_⟩
  obtain ⟨v, hv1, hv2⟩ := linspace_dist (t0 := a - t.offset) (t1 := b - t.offset) (n := k) (i := i)
    (by omega) (by omega) hk
  refine ⟨v + t.offset, by rw [hul]; simp [hv1], ?_⟩
  have : (v + t.offset) * ((k : Int) - 1) - (a * ((k : Int) - 1) + i * (b - a)) =
    v * ((k : Int) - 1) - ((a - t.offset) * ((k : Int) - 1) + i * (b - t.offset - (a - t.offset))) := by ring
  rw [this]; exact hv2

/-- **C25.** Resampling with a positive time delta returns a time of the same kind and with the same
reference time, sorted, from the first to the last original value, in which all steps are equal to the
given one, except for the last one which can be smaller (but is not 0 if the covered time is not). -/
theorem C25_resample_interval {t : Time} (hv : t.Valid) {a b : Int} (hl : 2 ≤ t.vals.length)
    (ha : t.vals.head? = some a) (hb : t.vals.getLast? = some b) {f : Int} (hf : 0 < f) :
    ∃ u, t.resample (.interval f) = .ok u ∧ u.abs = t.abs ∧ u.Valid ∧ (∀ r, t.HasRef r → u.HasRef r) ∧
      u.vals.head? = some a ∧ u.vals.getLast? = some b ∧ (∀ x ∈ u.vals, a ≤ x ∧ x ≤ b) ∧
      (∀ i x y, u.vals[i]? = some x → u.vals[i + 1]? = some y → 0 < y - x ∧ y - x ≤ f ∧
        (i + 2 < u.vals.length → y - x = f)) := by
  have hab : a ≤ b := ((sorted_min_max hv.sorted ha hb).2.2 b (List.mem_of_getLast? hb)).1
  set q := ((b - t.offset - (a - t.offset)) / f).toNat with hq
  have hq' : (q : Int) = (b - a) / f := by
    rw [hq, Int.toNat_of_nonneg (Int.ediv_nonneg (by omega) (by omega))]
    congr 1; omega
  have hq1 : (q : Int) * f ≤ b - a := by rw [hq']; exact Int.ediv_mul_le _ (by omega)
  have hq2 : b - a < (q + 1) * f := by rw [hq']; exact Int.lt_ediv_add_one_mul_self _ hf
  have hlast := arange_last (t0 := a - t.offset) (t1 := b - t.offset) (f := f)
  rw [← hq] at hlast
  have hsort := arange_sorted (t0 := a - t.offset) (t1 := b - t.offset) hf
  have hlen := arange_length (t0 := a - t.offset) (t1 := b - t.offset) (f := f)
  rw [← hq] at hlen
  have hget : ∀ i, i ≤ q → (arange (a - t.offset) (b - t.offset) f)[i]? = some (a - t.offset + i * f) :=
    fun i hi => arange_get i hi
  generalize harr : arange (a - t.offset) (b - t.offset) f = l at hlast hsort hlen hget
  have fin : ∀ (l' : List Int), (if l.getLast? = some (b - t.offset) then l else l ++ [b - t.offset]) = l' →
      l'.Pairwise (· ≤ ·) → l'.head? = some (a - t.offset) → l'.getLast? = some (b - t.offset) →
      (∀ (i : ℕ) (x y : ℤ), l'[i]? = some x → l'[i + 1]? = some y → 0 < y - x ∧ y - x ≤ f ∧
        (i + 2 < l'.length → y - x = f)) → ∃ u, t.resample (.interval f) = .ok u ∧ u.abs = t.abs ∧
      u.Valid ∧ (∀ r, t.HasRef r → u.HasRef r) ∧
      u.vals.head? = some a ∧ u.vals.getLast? = some b ∧ (∀ x ∈ u.vals, a ≤ x ∧ x ≤ b) ∧
      (∀ i x y, u.vals[i]? = some x → u.vals[i + 1]? = some y → 0 < y - x ∧ y - x ≤ f ∧
        (i + 2 < u.vals.length → y - x = f)) := by
    intro l' hl' hs' hh' hg' hd'
    obtain ⟨u, hu, hua, huv, hul, hur⟩ := resample_eq hv hl ha hb (.interval f) (l := l)
      (by dsimp only; rw [if_neg (by omega), harr]) (by rw [hl']; exact hs')
    rw [hl'] at hul
    have hh : u.vals.head? = some a := by rw [hul]; simp [hh']
    have hg : u.vals.getLast? = some b := by rw [hul]; simp [hg']
    refine ⟨u, hu, hua, huv, fun r hr => ⟨hua.trans hr.1, .inl (hur r hr)⟩, hh, hg,
      (sorted_min_max huv.sorted hh hg).2.2, fun i x y hx hy => ?_⟩
    rw [hul] at hx hy ⊢
    simp only [List.getElem?_map, Option.map_eq_some_iff] at hx hy
    obtain ⟨x', hx, rfl⟩ := hx
    obtain ⟨y', hy, rfl⟩ := hy
    have := hd' i x' y' hx hy
    rw [List.length_map]
    refine ⟨by omega, by omega, fun h => ?_⟩
    have := this.2.2 h
    omega
  have hhead : l.head? = some (a - t.offset) := by
    rw [List.head?_eq_getElem?, hget 0 (by omega)]; simp
  have hstep : ∀ (i : ℕ) (x y : ℤ), l[i]? = some x → l[i + 1]? = some y → y - x = f := by
    intro i x y hx hy
    have hi : i + 1 < l.length := by
      by_contra hc
      rw [List.getElem?_eq_none (by omega)] at hy; cases hy
    rw [hget i (by omega)] at hx
    rw [hget (i + 1) (by omega)] at hy
    cases hx; cases hy
    push_cast; ring
  by_cases hc : l.getLast? = some (b - t.offset)
  · refine fin l (if_pos hc) hsort hhead hc fun i x y hx hy => ?_
    have := hstep i x y hx hy
    omega
  · have hne : (q : Int) * f ≠ b - a := by
      intro e
      refine hc ?_
      rw [hlast, e]; congr 1; omega
    refine fin (l ++ [b - t.offset]) (if_neg hc) ?_ ?_ (by simp) ?_
    · rw [List.pairwise_append]
      refine ⟨hsort, by simp, fun x hx y hy => ?_⟩
      simp only [List.mem_singleton] at hy
      subst hy
      have := ((sorted_min_max hsort hhead hlast).2.2 x hx).2
      omega
    · rw [List.head?_append, hhead]; rfl
    · intro i x y hx hy
      have hi : i < l.length := by
        by_contra hcc
        rw [List.getElem?_eq_none (by simp; omega)] at hy; cases hy
      rw [List.getElem?_append_left hi] at hx
      by_cases hi' : i + 1 < l.length
      · rw [List.getElem?_append_left hi'] at hy
        have := hstep i x y hx hy
        omega
      · rw [List.getElem?_append_right (by omega)] at hy
        have : i + 1 - l.length = 0 := by omega
        rw [this] at hy
        simp only [List.getElem?_cons_zero, Option.some.injEq] at hy
        have hiq : i = q := by omega
        rw [hiq, hget q le_rfl] at hx
        simp only [Option.some.injEq] at hx
        have h5 : ((q : Int) + 1) * f = q * f + f := by ring
        refine ⟨by omega, by omega, fun h => ?_⟩
        simp at h; omega

/-- **C25.** Resampling is rejected for less than two values, less than two steps and time deltas that are
not positive. -/
theorem C25_resample_rejected {t : Time} (hv : t.Valid) :
    (∀ r, t.vals.length ≤ 1 → t.resample r = .error .runtimeError) ∧
    (2 ≤ t.vals.length → (∀ n, n < 2 → t.resample (.number n) = .error .valueError) ∧
      (∀ f, f ≤ 0 → t.resample (.interval f) = .error .valueError)) := by
  refine ⟨fun r h => by rw [resample, if_pos h], fun hl => ?_⟩
  have hne : t.vals ≠ [] := by intro e; rw [e] at hl; simp at hl
  have hmin : (t.vals.map (· - t.offset)).min? ≠ none := by simpa using hne
  have hmax : (t.vals.map (· - t.offset)).max? ≠ none := by simpa using hne
  obtain ⟨t0, h0⟩ := Option.ne_none_iff_exists'.1 hmin
  obtain ⟨t1, h1⟩ := Option.ne_none_iff_exists'.1 hmax
  have key : ∀ r, t.resample r = (do
      let new ← match r with
        | .number n => if n < 2 then Except.error TimeError.valueError else .ok (linspace t0 t1 n.toNat)
        | .interval f => if f ≤ 0 then .error .valueError else .ok (arange t0 t1 f)
      let new := if new.getLast? = some t1 then new else new ++ [t1]
      let ref ← t.referenceTime
      make false new ref) := by
    intro r
    rw [resample, if_neg (by omega), asTimedelta_eq hne]
    show (match (t.vals.map (· - t.offset)).min?, (t.vals.map (· - t.offset)).max? with
      | some t0, some t1 => _
      | _, _ => _) = _
    rw [h0, h1]
    rfl
  refine ⟨fun n hn => ?_, fun f hf => ?_⟩
  · rw [key]; dsimp only; rw [if_pos hn]; rfl
  · rw [key]; dsimp only; rw [if_pos hf]; rfl

/-- the example of the documentation: `3s, 6s, 7s, 9s` resampled with `1.5s`, and with `2s` where the last
step is shorter; values in multiples of 0.5 s, with a reference time -/
example : (⟨false, [6, 12, 14, 18], none⟩ : Time).resample (.interval 3) =
      .ok ⟨false, [6, 9, 12, 15, 18], none⟩ ∧
    (⟨true, [106, 112, 114, 119], some 100⟩ : Time).resample (.interval 5) =
      .ok ⟨true, [106, 111, 116, 119], some 100⟩ ∧
    (⟨true, [106, 112, 114, 118], none⟩ : Time).resample (.number 4) =
      .ok ⟨true, [106, 110, 114, 118], some 106⟩ := ⟨by rfl, by rfl, by rfl⟩

/-! ### C26 -/

/-- Element `i` of a time under broadcasting: a single value stands for any number of equal values. -/
def bcast (l : List Int) (i : Nat) : Option Int := if l.length = 1 then l[0]? else l[i]?

/-- Lengths that can be combined. -/
def Compatible (a b : List Int) : Prop := a.length = 1 ∨ b.length = 1 ∨ a.length = b.length

/-- `l` is the result of applying `f` to the corresponding values of `a` and `b`. -/
def Elementwise {α : Type} (f : Int → Int → α) (a b : List Int) (l : List α) : Prop :=
  l.length = (if a.length = 1 then b.length else a.length) ∧
  ∀ i, i < l.length → ∃ x y, bcast a i = some x ∧ bcast b i = some y ∧ l[i]? = some (f x y)

theorem elementwise_ok {α : Type} (f : Int → Int → α) {a b : List Int} (h : Compatible a b) :
    ∃ l, elementwise f a b = .ok l ∧ Elementwise f a b l := by
  match a, b with
  | [x], b =>
    refine ⟨b.map (f x), rfl, by simp, fun i hi => ?_⟩
    simp only [List.length_map] at hi
    by_cases hb : b.length = 1
    · obtain ⟨y, rfl⟩ := List.length_eq_one_iff.1 hb
      have : i = 0 := by simpa using hi
      subst this
      exact ⟨x, y, rfl, rfl, rfl⟩
    · exact ⟨x, b[i], rfl, by simp [bcast, hb, hi], by simp [hi]⟩
  | [], [y] => exact ⟨[], rfl, rfl, fun i hi => by simp at hi⟩
  | a0 :: a1 :: a, [y] =>
    refine ⟨(a0 :: a1 :: a).map (f · y), rfl, by simp, fun i hi => ?_⟩
    simp only [List.length_map] at hi
    exact ⟨(a0 :: a1 :: a)[i], y, by simp [bcast, hi], rfl,
      by rw [List.getElem?_map, List.getElem?_eq_getElem hi]; rfl⟩
  | [], [] => exact ⟨[], rfl, rfl, fun i hi => by simp at hi⟩
  | [], y0 :: y1 :: b => simp [Compatible] at h
  | a0 :: a1 :: a, [] => simp [Compatible] at h
  | a0 :: a1 :: a, b0 :: b1 :: b =>
    have hl : (a0 :: a1 :: a).length = (b0 :: b1 :: b).length := by simpa [Compatible] using h
    refine ⟨List.zipWith f (a0 :: a1 :: a) (b0 :: b1 :: b), if_pos hl, by simp at hl ⊢; omega,
      fun i hi => ?_⟩
    have h1 : i < (a0 :: a1 :: a).length := by rw [List.length_zipWith] at hi; omega
    have h2 : i < (b0 :: b1 :: b).length := by rw [List.length_zipWith] at hi; omega
    exact ⟨(a0 :: a1 :: a)[i], (b0 :: b1 :: b)[i], by simp [bcast, h1], by simp [bcast, h2],
      by rw [List.getElem?_zipWith, List.getElem?_eq_getElem h1, List.getElem?_eq_getElem h2]⟩

theorem elementwise_err {α : Type} (f : Int → Int → α) {a b : List Int} (h : ¬ Compatible a b) :
    elementwise f a b = .error .valueError := by
  match a, b with
  | [x], b => simp [Compatible] at h
  | [], [y] => simp [Compatible] at h
  | a0 :: a1 :: a, [y] => simp [Compatible] at h
  | [], [] => simp [Compatible] at h
  | [], y0 :: y1 :: b => rfl
  | a0 :: a1 :: a, [] => rfl
  | a0 :: a1 :: a, b0 :: b1 :: b =>
    have : (a0 :: a1 :: a).length ≠ (b0 :: b1 :: b).length := fun e => h (.inr (.inr e))
    exact if_neg this

theorem Elementwise.unique {α : Type} {f : Int → Int → α} {a b : List Int} {l l' : List α}
    (h : Elementwise f a b l) (h' : Elementwise f a b l') : l = l' := by
  have hl : l.length = l'.length := h.1.trans h'.1.symm
  apply List.ext_getElem? fun i => ?_
  by_cases hi : i < l.length
  · obtain ⟨x, y, h1, h2, h3⟩ := h.2 i hi
    obtain ⟨x', y', h1', h2', h3'⟩ := h'.2 i (by omega)
    rw [h1] at h1'; rw [h2] at h2'; cases h1'; cases h2'
    rw [h3, h3']
  · rw [List.getElem?_eq_none (by omega), List.getElem?_eq_none (by omega)]

theorem bcast_mono {l : List Int} (hs : l.Pairwise (· ≤ ·)) {i j : Nat} (hij : i < j) {x y : Int}
    (hx : bcast l i = some x) (hy : bcast l j = some y) : x ≤ y := by
  unfold bcast at hx hy
  split at hx
  · rename_i h
    rw [if_pos h] at hy
    rw [hx] at hy; cases hy; exact le_rfl
  · rename_i h
    rw [if_neg h] at hy
    obtain ⟨hi, rfl⟩ := List.getElem?_eq_some_iff.1 hx
    obtain ⟨hj, rfl⟩ := List.getElem?_eq_some_iff.1 hy
    exact List.pairwise_iff_getElem.1 hs i j hi hj hij

theorem Elementwise.sorted_add {a b l : List Int} (h : Elementwise (· + ·) a b l)
    (ha : a.Pairwise (· ≤ ·)) (hb : b.Pairwise (· ≤ ·)) : l.Pairwise (· ≤ ·) := by
  rw [List.pairwise_iff_getElem]
  intro i j hi hj hij
  obtain ⟨x, y, h1, h2, h3⟩ := h.2 i hi
  obtain ⟨x', y', h1', h2', h3'⟩ := h.2 j hj
  rw [List.getElem?_eq_getElem hi, Option.some.injEq] at h3
  rw [List.getElem?_eq_getElem hj, Option.some.injEq] at h3'
  rw [h3, h3']
  have := bcast_mono ha hij h1 h1'
  have := bcast_mono hb hij h2 h2'
  show x + y ≤ x' + y'
  omega

theorem Elementwise.sorted_sub {a b l : List Int} (h : Elementwise (· - ·) a b l)
    (ha : a.Pairwise (· ≤ ·)) (hb : b.length = 1) : l.Pairwise (· ≤ ·) := by
  rw [List.pairwise_iff_getElem]
  intro i j hi hj hij
  obtain ⟨x, y, h1, h2, h3⟩ := h.2 i hi
  obtain ⟨x', y', h1', h2', h3'⟩ := h.2 j hj
  rw [List.getElem?_eq_getElem hi, Option.some.injEq] at h3
  rw [List.getElem?_eq_getElem hj, Option.some.injEq] at h3'
  rw [h3, h3']
  have := bcast_mono ha hij h1 h1'
  rw [bcast, if_pos hb] at h2 h2'
  rw [h2] at h2'; cases h2'
  show x - y ≤ x' - y
  omega

/-- the reference time a result gets from an absolute time -/
theorem make_with_ref {t : Time} (hv : t.Valid) (hne : t.vals ≠ []) {l : List Int}
    (hl : l.Pairwise (· ≤ ·)) : ∃ ro, t.referenceTime = .ok ro ∧ ∃ u, make t.abs l ro = .ok u ∧
      u.abs = t.abs ∧ u.Valid ∧ u.vals = l ∧ (∀ r, t.HasRef r → u.HasRef r) := by
  obtain ⟨a, v, r⟩ := t
  cases a with
  | false =>
    exact ⟨none, referenceTime_rel rfl, _, make_rel.2 ⟨hl, rfl⟩, rfl, ⟨hl, fun _ => rfl⟩, rfl,
      fun r h => absurd h.1 (by simp)⟩
  | true =>
    obtain ⟨r', hr⟩ := HasRef.exists (t := ⟨true, v, r⟩) rfl hne
    have := referenceTime_iff.2 hr
    refine ⟨some r', this, _, make_abs.2 ⟨hl, rfl⟩, rfl, ⟨hl, fun h => by cases h⟩, rfl, fun s hs => ?_⟩
    have h2 := referenceTime_iff.2 hs
    rw [this] at h2
    cases h2
    exact ⟨rfl, .inl rfl⟩

/-- **C26.** Adding time deltas to a time (absolute or relative) shifts every value by the corresponding
delta, keeps the kind and the reference time, and does not depend on the order of the operands. -/
theorem C26_add_delta {t d : Time} (ht : t.Valid) (hd : d.Valid) (hne : t.vals ≠ [])
    (hrel : d.abs = false) (hc : Compatible t.vals d.vals) :
    ∃ u, t.add d = .ok u ∧ d.add t = .ok u ∧ u.Valid ∧ u.abs = t.abs ∧
      Elementwise (· + ·) t.vals d.vals u.vals ∧ ∀ r, t.HasRef r → u.HasRef r := by
  obtain ⟨l, hl, hE⟩ := elementwise_ok (· + ·) hc
  obtain ⟨ro, hro, u, hu, h1, h2, h3, h4⟩ := make_with_ref ht hne (hE.sorted_add ht.sorted hd.sorted)
  refine ⟨u, ?_, ?_, h2, h1, by rw [h3]; exact hE, h4⟩
  · simp only [add, ofTime_valid hd, bind, Except.bind, hrel, Bool.and_false, Bool.or_false, hl]
    cases hta : t.abs with
    | true => rw [hta] at hu; simpa [hro] using hu
    | false =>
      rw [referenceTime_rel hta] at hro; cases hro
      rw [hta] at hu
      simpa [referenceTime_rel hrel] using hu
  · have hc' : Compatible d.vals t.vals := by
      rcases hc with h | h | h
      · exact .inr (.inl h)
      · exact .inl h
      · exact .inr (.inr h.symm)
    obtain ⟨l', hl', hE'⟩ := elementwise_ok (· + ·) hc'
    have hEq : Elementwise (· + ·) t.vals d.vals l' := by
      refine ⟨?_, fun i hi => ?_⟩
      · rw [hE'.1]
        rcases hc with h | h | h
        · rw [if_pos h]; split
          · rename_i h'; rw [h, h']
          · rfl
        · rw [if_pos h]; split
          · rename_i h'; rw [h, h']
          · rfl
        · rw [h]
      · obtain ⟨x, y, g1, g2, g3⟩ := hE'.2 i hi
        exact ⟨y, x, g2, g1, by rw [g3]; exact congrArg some (Int.add_comm x y)⟩
    have := hEq.unique hE
    subst this
    simp only [add, ofTime_valid ht, bind, Except.bind, hrel, Bool.false_and, Bool.false_or, hl',
      Bool.false_eq_true, if_false, hro]
    exact hu

/-- **C26.** Subtracting a single time delta shifts every value back and keeps kind and reference time;
subtracting several does so exactly if the results are increasing, otherwise it is rejected. -/
theorem C26_sub_delta {t d : Time} (ht : t.Valid) (hd : d.Valid) (hne : t.vals ≠ [])
    (hrel : d.abs = false) (hc : Compatible t.vals d.vals) :
    ∃ l, Elementwise (· - ·) t.vals d.vals l ∧ (d.vals.length = 1 → l.Pairwise (· ≤ ·)) ∧
      (l.Pairwise (· ≤ ·) → ∃ u, t.sub d = .ok u ∧ u.Valid ∧ u.abs = t.abs ∧ u.vals = l ∧
        ∀ r, t.HasRef r → u.HasRef r) ∧
      (¬ l.Pairwise (· ≤ ·) → t.sub d = .error .valueError) := by
  obtain ⟨l, hl, hE⟩ := elementwise_ok (· - ·) hc
  refine ⟨l, hE, fun h => hE.sorted_sub ht.sorted h, fun hs => ?_, fun hs => ?_⟩
  · obtain ⟨ro, hro, u, hu, h1, h2, h3, h4⟩ := make_with_ref ht hne hs
    refine ⟨u, ?_, h2, h1, h3, h4⟩
    simp only [sub, ofTime_valid hd, bind, Except.bind, hrel, Bool.and_false, Bool.false_eq_true, if_false,
      hro, hl, Bool.not_false, Bool.and_true]
    exact hu
  · obtain ⟨ro, hro, _⟩ := make_with_ref ht hne (l := []) List.Pairwise.nil
    simp only [sub, ofTime_valid hd, bind, Except.bind, hrel, Bool.and_false, Bool.false_eq_true, if_false,
      hro, hl, Bool.not_false, Bool.and_true]
    have hm : monotonic l = false := by
      rw [← Bool.not_eq_true, monotonic_iff]; exact hs
    cases hta : t.abs with
    | false =>
      rw [referenceTime_rel hta] at hro; cases hro
      simp [make, hm]
    | true => cases ro <;> simp [make, hm]

/-- **C26.** The difference of two absolute times consists of the time deltas between the instants,
whatever the reference times are. It is rejected if these are not increasing, which can not happen if a
single time stamp is subtracted. Adding the difference to the subtracted time gives back the first. -/
theorem C26_sub_absolute {t o : Time} (ht : t.Valid) (ho : o.Valid) (hne : o.vals ≠ [])
    (hta : t.abs = true) (hoa : o.abs = true) (hc : o.vals.length = 1 ∨ t.vals.length = o.vals.length) :
    ∃ l, Elementwise (· - ·) t.vals o.vals l ∧ (o.vals.length = 1 → l.Pairwise (· ≤ ·)) ∧
      (l.Pairwise (· ≤ ·) → ∃ u, t.sub o = .ok u ∧ u.Valid ∧ u.abs = false ∧ u.vals = l ∧
        ∃ w, o.add u = .ok w ∧ w.abs = true ∧ w.vals = t.vals ∧ ∀ r, o.HasRef r → w.HasRef r) ∧
      (¬ l.Pairwise (· ≤ ·) → t.sub o = .error .valueError) := by
  obtain ⟨l, hl, hE⟩ := elementwise_ok (f := (· - ·)) (a := t.vals) (b := o.vals) (.inr hc)
  have hsub : t.sub o = make false l none := by
    simp only [sub, ofTime_valid ho, bind, Except.bind, hta, hoa, Bool.not_true, Bool.false_and,
      Bool.false_eq_true, if_false, if_true, hl, Bool.and_false]
  refine ⟨l, hE, fun h => hE.sorted_sub ht.sorted h, fun hs => ?_, fun hs => ?_⟩
  · have hu : t.sub o = .ok ⟨false, l, none⟩ := by rw [hsub]; exact make_rel.2 ⟨hs, rfl⟩
    have hll : l.length = t.vals.length := by
      rw [hE.1]
      split
      · rename_i h; rcases hc with h' | h' <;> omega
      · rfl
    have hcomp : Compatible o.vals l := by
      rcases hc with h | h
      · exact .inl h
      · exact .inr (.inr (by omega))
    obtain ⟨w, hw, _, _, hwa, hwE, hwr⟩ := C26_add_delta (t := o) (d := ⟨false, l, none⟩) ho
      ⟨hs, fun _ => rfl⟩ hne rfl hcomp
    refine ⟨_, hu, ⟨hs, fun _ => rfl⟩, rfl, rfl, w, hw, hwa.trans hoa, ?_, hwr⟩
    have hlw : w.vals.length = t.vals.length := by
      rw [hwE.1]
      split
      · exact hll
      · rcases hc with h' | h' <;> omega
    apply List.ext_getElem? fun i => ?_
    by_cases hi : i < w.vals.length
    · obtain ⟨x, y, g1, g2, g3⟩ := hwE.2 i hi
      have hil : i < l.length := by omega
      obtain ⟨x', y', k1, k2, k3⟩ := hE.2 i hil
      have e1 : bcast l i = l[i]? := by
        unfold bcast; split
        · have : i = 0 := by omega
          rw [this]
        · rfl
      have e2 : bcast t.vals i = t.vals[i]? := by
        unfold bcast; split
        · have : i = 0 := by omega
          rw [this]
        · rfl
      rw [g1] at k2; cases k2
      have g2' : l[i]? = some y := by rw [← e1]; exact g2
      rw [k3] at g2'; cases g2'
      rw [g3, ← e2, k1]
      congr 1; ring
    · rw [List.getElem?_eq_none (by omega), List.getElem?_eq_none (by omega)]
  · rw [hsub]
    have hm : monotonic l = false := by
      rw [← Bool.not_eq_true, monotonic_iff]; exact hs
    simp [make, hm]

/-- **C26.** Two absolute times can not be added and an absolute time can not be subtracted from a relative
one; lengths that do not match are rejected. -/
theorem C26_rejected {t o : Time} (ht : t.Valid) (ho : o.Valid) (hne : t.vals ≠ []) (hoe : o.vals ≠ []) :
    (t.abs = true → o.abs = true → t.add o = .error .typeError) ∧
    (t.abs = false → o.abs = true → t.sub o = .error .typeError) ∧
    (o.abs = false → ¬ Compatible t.vals o.vals →
      t.add o = .error .valueError ∧ t.sub o = .error .valueError) := by
  refine ⟨fun h1 h2 => ?_, fun h1 h2 => ?_, fun h1 h2 => ?_⟩
  · obtain ⟨r, hr⟩ := HasRef.exists h1 hne
    simp [add, ofTime_valid ho, bind, Except.bind, h1, h2, referenceTime_iff.2 hr]
  · simp [sub, ofTime_valid ho, bind, Except.bind, h1, h2]
  · cases h3 : t.abs with
    | false =>
      simp [add, sub, ofTime_valid ho, bind, Except.bind, h1, h3, elementwise_err _ h2, referenceTime_rel h1,
        referenceTime_rel h3]
    | true =>
      obtain ⟨r, hr⟩ := HasRef.exists h3 hne
      simp [add, sub, ofTime_valid ho, bind, Except.bind, h1, h3, elementwise_err _ h2,
        referenceTime_iff.2 hr]

/-- **C26.** The reflected operators give the same as the operators with exchanged operands. -/
theorem C26_reflected {t o : Time} (ht : t.Valid) (ho : o.Valid) : t.rsub o = o.sub t := by
  simp only [rsub, sub, ofTime_valid ht, ofTime_valid ho, bind, Except.bind]

/-- **C26.** `duration` of a time is a single time delta without reference time: the difference of its last and its first value. -/
theorem C26_duration {t : Time} (ht : t.Valid) {a b : Int} (ha : t.vals.head? = some a) (hb : t.vals.getLast? = some b) :
    t.duration = .ok ⟨false, [b - a], none⟩ := by
  obtain ⟨h1, h2, _⟩ := sorted_min_max ht.sorted ha hb
  simp only [duration, h1, h2]; rfl

/-- **C26.** An empty time has no duration. -/
theorem C26_duration_empty {t : Time} (h : t.vals = []) : t.duration = .error .valueError := by
  simp [duration, h]

/-- an absolute time with reference time has a duration without -/
example : (⟨true, [3, 5, 10], some 4⟩ : Time).duration = .ok ⟨false, [7], none⟩ :=
  C26_duration (t := ⟨true, [3, 5, 10], some 4⟩) ⟨by decide, fun h => by cases h⟩ rfl rfl

/-- A time stamp minus several time stamps: the time deltas decrease, so that no `Time` can hold them. -/
example : (⟨true, [10], none⟩ : Time).sub ⟨true, [3, 5], none⟩ = .error .valueError := by rfl
/-- The difference of times with different reference times, and adding it back. -/
example : (⟨true, [10, 14], some 7⟩ : Time).sub ⟨true, [3, 5], some 1⟩ = .ok ⟨false, [7, 9], none⟩ ∧
    (⟨true, [3, 5], some 1⟩ : Time).add ⟨false, [7, 9], none⟩ = .ok ⟨true, [10, 14], some 1⟩ := ⟨by rfl, by rfl⟩
example : Compatible [10, 14] [3, 5] ∧ (⟨true, [10, 14], some 7⟩ : Time).Valid :=
  ⟨.inr (.inr rfl), by decide, fun h => by cases h⟩

/-! ### C27 -/

/-- **C27.** `==` compares the instants: whatever the reference times are, the comparison of absolute times
(or of relative times) of the same length is true everywhere exactly if all instants agree. An absolute and
a relative time differ in every element. -/
theorem C27_eq {t o : Time} (ho : o.Valid) :
    (Compatible t.vals o.vals → ∃ l, t.eq o = .ok l ∧
      Elementwise (fun x y => decide (x = y) && t.abs == o.abs) t.vals o.vals l) ∧
    (t.vals.length = o.vals.length → t.vals ≠ [] →
      (t.eq o = .ok (List.replicate t.vals.length true) ↔ t.abs = o.abs ∧ t.vals = o.vals)) ∧
    (¬ Compatible t.vals o.vals → t.eq o = .error .valueError) := by
  have hE : Compatible t.vals o.vals → ∃ l, t.eq o = .ok l ∧
      Elementwise (fun x y => decide (x = y) && t.abs == o.abs) t.vals o.vals l := by
    intro hc
    obtain ⟨l, hl, hE⟩ := elementwise_ok (fun x y => decide (x = y) && t.abs == o.abs) hc
    exact ⟨l, by simp only [eq, ofTime_valid ho, bind, Except.bind, hl], hE⟩
  refine ⟨hE, fun hl hne => ?_, fun hc => ?_⟩
  · obtain ⟨l, h1, h2⟩ := hE (.inr (.inr hl))
    have hlen : l.length = t.vals.length := by
      rw [h2.1]; split
      · rw [hl]
      · rfl
    have hb : ∀ v : List Int, ∀ i, v.length = t.vals.length → i < v.length → bcast v i = v[i]? := by
      intro v i hv hi
      unfold bcast; split
      · have : i = 0 := by omega
        rw [this]
      · rfl
    rw [h1]
    constructor
    · intro h
      have h : l = List.replicate t.vals.length true := by simpa using h
      have hall : ∀ i, i < l.length → ∃ x, t.vals[i]? = some x ∧ o.vals[i]? = some x ∧ t.abs = o.abs := by
        intro i hi
        obtain ⟨x, y, g1, g2, g3⟩ := h2.2 i hi
        rw [hb _ _ rfl (by omega)] at g1
        rw [hb _ _ hl.symm (by omega)] at g2
        have : l[i]? = some true := by
          rw [h, List.getElem?_replicate, if_pos (by omega)]
        rw [this] at g3
        simp at g3
        exact ⟨x, g1, by rw [g2, g3.1], g3.2⟩
      have h0 : 0 < t.vals.length := List.length_pos_iff.2 hne
      obtain ⟨_, _, _, ha⟩ := hall 0 (by omega)
      refine ⟨ha, List.ext_getElem? fun i => ?_⟩
      by_cases hi : i < l.length
      · obtain ⟨x, g1, g2, _⟩ := hall i hi
        rw [g1, g2]
      · rw [List.getElem?_eq_none (by omega), List.getElem?_eq_none (by omega)]
    · rintro ⟨ha, hv⟩
      congr 1
      rw [List.eq_replicate_iff]
      refine ⟨hlen, fun b hb' => ?_⟩
      obtain ⟨i, hi, rfl⟩ := List.getElem_of_mem hb'
      obtain ⟨x, y, g1, g2, g3⟩ := h2.2 i hi
      rw [hv] at g1
      rw [g1] at g2; cases g2
      rw [List.getElem?_eq_getElem hi] at g3
      simpa [ha] using g3
  · simp only [eq, ofTime_valid ho, bind, Except.bind, elementwise_err _ hc]

/-- The full statement of C27 about `equals`: it returns a truth value for any two times, and times are
equal exactly if they are of the same kind, denote the same instants and have the same reference time. -/
def EqualsCorrect : Prop :=
  ∀ t o : Time, t.Valid → o.Valid → ∃ b, t.equals o = .ok b ∧
    (b = true ↔ t.abs = o.abs ∧ t.vals = o.vals ∧ ∀ r, t.HasRef r ↔ o.HasRef r)

/-- **C27 (partial).** For times of the same positive length, `equals` is true exactly if kind, instants and
the stored reference times agree. Hence it is an equivalence relation on them and never identifies an
absolute with a relative time, and equal times have the same reference time. Missing: `equals` compares the
stored reference time instead of `reference_time`, and raises or broadcasts if the lengths differ, see
`C27_equals_counterexample`. -/
theorem C27_equals_partial {t o : Time} (ho : o.Valid) (hl : t.vals.length = o.vals.length)
    (hne : t.vals ≠ []) : ∃ b, t.equals o = .ok b ∧
      (b = true ↔ t.abs = o.abs ∧ t.vals = o.vals ∧ t.ref = o.ref) ∧
      (b = true → ∀ r, t.HasRef r ↔ o.HasRef r) := by
  have h := C27_eq (t := t) ho
  obtain ⟨l, h1, h2⟩ := h.1 (.inr (.inr hl))
  have hlen : l.length = t.vals.length := by
    rw [h2.1]; split
    · rw [hl]
    · rfl
  have h3 := h.2.1 hl hne
  rw [h1] at h3
  have hall : l.all id = true ↔ t.abs = o.abs ∧ t.vals = o.vals := by
    rw [← h3, ← hlen]
    simp [List.eq_replicate_iff]
  have key : (l.all id && decide (t.ref = o.ref)) = true ↔ t.abs = o.abs ∧ t.vals = o.vals ∧ t.ref = o.ref := by
    rw [Bool.and_eq_true, hall, decide_eq_true_eq, and_assoc]
  refine ⟨l.all id && decide (t.ref = o.ref), ?_, key, ?_⟩
  · simp only [equals, h1, bind, Except.bind]
  · intro hb r
    obtain ⟨e1, e2, e3⟩ := key.1 hb
    unfold HasRef
    rw [e1, e2, e3]

/-- **C27 fails** in the code: two times with the same instants and the same reference time that differ for
`equals` (one was given its first value as reference time); times of different lengths for which it raises;
three times for which it is not transitive. -/
theorem C27_equals_counterexample :
    ¬ EqualsCorrect ∧
    (∃ t o : Time, t.Valid ∧ o.Valid ∧ t.abs = o.abs ∧ t.vals = o.vals ∧ (∀ r, t.HasRef r ↔ o.HasRef r) ∧
      t.equals o = .ok false) ∧
    (∃ t o : Time, t.Valid ∧ o.Valid ∧ t.equals o = .error .valueError) ∧
    (∃ t o p : Time, t.Valid ∧ o.Valid ∧ p.Valid ∧ t.equals o = .ok true ∧ o.equals p = .ok true ∧
      t.equals p = .ok false) := by
  have h1 : ∃ t o : Time, t.Valid ∧ o.Valid ∧ t.abs = o.abs ∧ t.vals = o.vals ∧
      (∀ r, t.HasRef r ↔ o.HasRef r) ∧ t.equals o = .ok false :=
    ⟨⟨true, [1, 2], none⟩, ⟨true, [1, 2], some 1⟩, ⟨by decide, by simp⟩, ⟨by decide, by simp⟩, rfl, rfl,
      by simp [HasRef], by rfl⟩
  refine ⟨?_, h1, ⟨⟨false, [1, 2], none⟩, ⟨false, [1, 2, 3], none⟩, ⟨by decide, by simp⟩, ⟨by decide, by simp⟩,
    by rfl⟩, ⟨⟨false, [1], none⟩, ⟨false, [], none⟩, ⟨false, [2], none⟩, ⟨by decide, by simp⟩,
    ⟨by decide, by simp⟩, ⟨by decide, by simp⟩, by rfl, by rfl, by rfl⟩⟩
  intro h
  obtain ⟨t, o, ht, ho, h1, h2, h3, h4⟩ := h1
  obtain ⟨b, hb, hiff⟩ := h t o ht ho
  rw [h4] at hb; cases hb
  exact absurd (hiff.2 ⟨h1, h2, h3⟩) (by simp)

/-- same instants, different reference times: `==` is true everywhere, `equals` is not -/
example : (⟨true, [5, 8], some 5⟩ : Time).eq ⟨true, [5, 8], some 2⟩ = .ok [true, true] ∧
    (⟨true, [5, 8], some 5⟩ : Time).equals ⟨true, [5, 8], some 2⟩ = .ok false := ⟨by rfl, by rfl⟩

end Weldx.Time
