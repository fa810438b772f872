import Verif.Interp.Model
import Verif.Time.Props

/-!
# Values between, at and outside of the samples
-/

namespace Weldx.Ip

/-! ### specification -/

/-- times strictly increase -/
def Ascending {V : Type} (s : Series V) : Prop := s.Pairwise fun p q => p.1 < q.1

/-- what interpolation should give: the value at a time is the first one before the first time, the last one after the
last time, and between two neighbouring times `mix` of the two values there -/
inductive Value {V : Type} (mix : V → V → ℝ → V) (s : Series V) (t : Int) : V → Prop
  | before {p : Int × V} : s.head? = some p → t ≤ p.1 → Value mix s t p.2
  | after {p : Int × V} : s.getLast? = some p → p.1 ≤ t → Value mix s t p.2
  | between {i : ℕ} {p q : Int × V} : s[i]? = some p → s[i + 1]? = some q → p.1 ≤ t → t ≤ q.1 →
      Value mix s t (mix p.2 q.2 (((t : ℝ) - p.1) / (q.1 - p.1)))

/-- linear interpolation -/
noncomputable def linMix {V : Type} [AddCommGroup V] [Module ℝ V] (a b : V) (w : ℝ) : V := (1 - w) • a + w • b

/-- step interpolation: the value at the last time that is not after the requested one, the first value before the first
time -/
inductive StepValue {V : Type} (s : Series V) (t : Int) : V → Prop
  | before {p : Int × V} : s.head? = some p → t ≤ p.1 → StepValue s t p.2
  | at {p : Int × V} : p ∈ s → p.1 ≤ t → (∀ q ∈ s, q.1 ≤ t → q.1 ≤ p.1) → StepValue s t p.2

/-! ### filling -/

section fill
variable {V : Type}

theorem bfill_length : ∀ l : List (Option V), (bfill l).length = l.length
  | [] => rfl
  | some v :: l => by simp [bfill, bfill_length l]
  | none :: l => by simp [bfill, bfill_length l]

theorem ffill_length : ∀ (l : List (Option V)) (a : Option V), (ffill l a).length = l.length
  | [], _ => rfl
  | some v :: l, _ => by simp [ffill, ffill_length l]
  | none :: l, _ => by simp [ffill, ffill_length l]

/-- `bfill` gives the first value from the place on -/
theorem bfill_get : ∀ (l : List (Option V)) (i : ℕ), i < l.length → (bfill l)[i]? = some ((l.drop i).findSome? id)
  | [], i, h => by simp at h
  | some v :: l, 0, _ => by simp [bfill]
  | some v :: l, i + 1, h => by
    simp only [bfill, List.getElem?_cons_succ, List.drop_succ_cons]
    exact bfill_get l i (by simpa using h)
  | none :: l, 0, _ => by
    simp only [bfill, List.getElem?_cons_zero, List.drop_zero, List.findSome?_cons, id_eq]
    cases l with
    | nil => rfl
    | cons x l =>
      have := bfill_get (x :: l) 0 (by simp)
      rw [List.head?_eq_getElem?, this]
      simp
  | none :: l, i + 1, h => by
    simp only [bfill, List.getElem?_cons_succ, List.drop_succ_cons]
    exact bfill_get l i (by simpa using h)

/-- `ffill` gives the last value up to the place -/
theorem ffill_get : ∀ (l : List (Option V)) (a : Option V) (i : ℕ), i < l.length →
    (ffill l a)[i]? = some ((((l.take (i + 1)).reverse).findSome? id).or a)
  | [], _, i, h => by simp at h
  | some v :: l, a, 0, _ => by simp [ffill]
  | some v :: l, a, i + 1, h => by
    simp only [ffill, List.getElem?_cons_succ]
    rw [ffill_get l _ i (by simpa using h)]
    simp [List.take_succ_cons, List.findSome?_append, Option.or_assoc]
  | none :: l, a, 0, _ => by simp [ffill]
  | none :: l, a, i + 1, h => by
    simp only [ffill, List.getElem?_cons_succ]
    rw [ffill_get l _ i (by simpa using h)]
    simp [List.take_succ_cons, List.findSome?_append, Option.or_assoc]

theorem fillAll_length (l : List (Option V)) : (fillAll l).length = l.length := by
  unfold fillAll; rw [ffill_length, bfill_length]

/-- existing values are kept -/
theorem fill_some {l : List (Option V)} {i : ℕ} {v : V} (h : l[i]? = some (some v)) : (fillAll l)[i]? = some (some v) := by
  have hi := (List.getElem?_eq_some_iff.1 h).1
  unfold fillAll
  rw [ffill_get _ _ _ (by rw [bfill_length]; exact hi)]
  have hb : (bfill l)[i]? = some (some v) := by
    rw [bfill_get _ _ hi, List.drop_eq_getElem_cons hi]
    rw [List.getElem?_eq_getElem hi] at h
    rw [Option.some.inj h]
    simp
  have hi' : i < (bfill l).length := by rw [bfill_length]; exact hi
  rw [List.take_succ_eq_append_getElem hi']
  rw [List.getElem?_eq_getElem hi'] at hb
  rw [Option.some.inj hb]
  simp

theorem findSome_first {l : List (Option V)} {j : ℕ} {v : V} (h : l[j]? = some (some v)) (hn : ∀ k, k < j → l[k]? = some none) :
    l.findSome? id = some v := by
  induction l generalizing j with
  | nil => simp at h
  | cons x l ih =>
    cases j with
    | zero =>
      simp only [List.getElem?_cons_zero, Option.some.injEq] at h
      subst h
      simp
    | succ j =>
      have h0 := hn 0 (by omega)
      simp only [List.getElem?_cons_zero, Option.some.injEq] at h0
      subst h0
      simp only [List.findSome?_cons, id_eq]
      exact ih (by simpa using h) fun k hk => by simpa using hn (k + 1) (by omega)

/-- missing values before the first one -/
theorem fill_before {l : List (Option V)} {i j : ℕ} {v : V} (hij : i ≤ j) (h : l[j]? = some (some v))
    (hn : ∀ k, i ≤ k → k < j → l[k]? = some none) : (fillAll l)[i]? = some (some v) := by
  have hj := (List.getElem?_eq_some_iff.1 h).1
  have hi : i < l.length := by omega
  unfold fillAll
  rw [ffill_get _ _ _ (by rw [bfill_length]; exact hi)]
  have hb : (bfill l)[i]? = some (some v) := by
    rw [bfill_get _ _ hi]
    congr 1
    apply findSome_first (j := j - i)
    · rw [List.getElem?_drop, Nat.add_sub_cancel' hij]; exact h
    · intro k hk
      rw [List.getElem?_drop]
      exact hn _ (by omega) (by omega)
  have hi' : i < (bfill l).length := by rw [bfill_length]; exact hi
  rw [List.take_succ_eq_append_getElem hi']
  rw [List.getElem?_eq_getElem hi'] at hb
  rw [Option.some.inj hb]
  simp

/-- missing values after the last one -/
theorem fill_after {l : List (Option V)} {i j : ℕ} {v : V} (hji : j ≤ i) (hi : i < l.length) (h : l[j]? = some (some v))
    (hn : ∀ k, j < k → k < l.length → l[k]? = some none) : (fillAll l)[i]? = some (some v) := by
  have hj := (List.getElem?_eq_some_iff.1 h).1
  unfold fillAll
  rw [ffill_get _ _ _ (by rw [bfill_length]; exact hi)]
  have hb : (bfill l)[j]? = some (some v) := by
    rw [bfill_get _ _ hj]
    congr 1
    apply findSome_first (j := 0)
    · rw [List.getElem?_drop]; exact h
    · intro k hk; omega
  have hbn : ∀ k, j < k → k < l.length → (bfill l)[k]? = some none := by
    intro k h1 h2
    rw [bfill_get _ _ h2]
    congr 1
    rw [List.findSome?_eq_none_iff]
    intro x hx
    obtain ⟨m, hm⟩ := List.getElem?_of_mem hx
    rw [List.getElem?_drop] at hm
    have hl := (List.getElem?_eq_some_iff.1 hm).1
    rw [hn _ (by omega) hl] at hm
    cases hm
    rfl
  have : ((List.take (i + 1) (bfill l)).reverse).findSome? id = some v := by
    apply findSome_first (j := i - j)
    · rw [List.getElem?_reverse (by simp [bfill_length]; omega)]
      simp only [List.length_take, bfill_length]
      rw [List.getElem?_take_of_lt (by omega)]
      rw [show min (i + 1) l.length - 1 - (i - j) = j by omega]
      exact hb
    · intro k hk
      rw [List.getElem?_reverse (by simp [bfill_length]; omega)]
      simp only [List.length_take, bfill_length]
      rw [List.getElem?_take_of_lt (by omega)]
      exact hbn _ (by omega) (by omega)
  rw [this]
  simp

end fill

/-! ### the index -/

theorem sorted_le {l : List Int} (h : l.Pairwise (· < ·)) : l.Pairwise (· ≤ ·) := h.imp fun h => le_of_lt h

/-- union of strictly ascending lists is strictly ascending -/
theorem union_strict {xs ys : List Int} (hx : xs.Pairwise (· < ·)) (hy : ys.Pairwise (· < ·)) :
    (Time.unionVals xs ys).Pairwise (· < ·) := by
  have hs := Time.unionVals_sorted xs ys (sorted_le hx) (sorted_le hy)
  have hn : (Time.unionVals xs ys).Nodup := by
    rw [List.nodup_iff_count_le_one]
    intro a
    rw [Time.unionVals_count xs ys (sorted_le hx) (sorted_le hy)]
    have h1 := List.nodup_iff_count_le_one.1 (hx.imp fun h => ne_of_lt h) a
    have h2 := List.nodup_iff_count_le_one.1 (hy.imp fun h => ne_of_lt h) a
    omega
  exact (List.pairwise_and_iff.2 ⟨hs, hn⟩).imp fun h => lt_of_le_of_ne h.1 h.2

theorem asc_get {l : List Int} (h : l.Pairwise (· < ·)) {i j : ℕ} {a b : Int} (hi : l[i]? = some a) (hj : l[j]? = some b) :
    (i < j ↔ a < b) ∧ (i = j ↔ a = b) := by
  obtain ⟨h1, rfl⟩ := List.getElem?_eq_some_iff.1 hi
  obtain ⟨h2, rfl⟩ := List.getElem?_eq_some_iff.1 hj
  have lt : ∀ {i j : ℕ} (h1 : i < l.length) (h2 : j < l.length), i < j → l[i] < l[j] :=
    fun h1 h2 => List.pairwise_iff_getElem.1 h _ _ h1 h2
  rcases lt_trichotomy i j with hij | hij | hij
  · have := lt h1 h2 hij; constructor <;> constructor <;> intro <;> omega
  · subst hij; simp
  · have := lt h2 h1 hij; constructor <;> constructor <;> intro <;> omega

theorem idxOf_get {l : List Int} {t : Int} (h : t ∈ l) : l[l.idxOf t]? = some t := by
  have hi := List.idxOf_lt_length_iff.2 h
  rw [List.getElem?_eq_getElem hi, List.getElem_idxOf hi]

section filled
variable {V : Type} {g : List Int} {f : Int → Option V}

theorem get_map {k : ℕ} {x : Int} (h : g[k]? = some x) : (g.map f)[k]? = some (f x) := by
  rw [List.getElem?_map, h]; rfl

/-- existing values -/
theorem filled_some {t : Int} (ht : t ∈ g) {v : V} (hv : f t = some v) :
    ((fillAll (g.map f))[g.idxOf t]?).join = some v := by
  rw [fill_some (v := v) (by rw [get_map (idxOf_get ht), hv])]; rfl

/-- before the first value -/
theorem filled_before (hg : g.Pairwise (· < ·)) {a : Int} {va : V} (ha : a ∈ g) (hfa : f a = some va)
    (hlow : ∀ t, t < a → f t = none) {t : Int} (ht : t ∈ g) (h : t < a) :
    ((fillAll (g.map f))[g.idxOf t]?).join = some va := by
  have it := idxOf_get ht
  have ia := idxOf_get ha
  have hij := (asc_get hg it ia).1.2 h
  rw [fill_before (j := g.idxOf a) (v := va) hij.le (by rw [get_map ia, hfa])]
  · rfl
  · intro k h1 h2
    have hk : k < g.length := lt_trans h2 (List.getElem?_eq_some_iff.1 ia).1
    have ek := List.getElem?_eq_getElem hk
    rw [get_map ek, hlow _ ((asc_get hg ek ia).1.1 h2)]

/-- after the last value -/
theorem filled_after (hg : g.Pairwise (· < ·)) {b : Int} {vb : V} (hb : b ∈ g) (hfb : f b = some vb)
    (hup : ∀ t, b < t → f t = none) {t : Int} (ht : t ∈ g) (h : b < t) :
    ((fillAll (g.map f))[g.idxOf t]?).join = some vb := by
  have it := idxOf_get ht
  have ib := idxOf_get hb
  have hij := (asc_get hg ib it).1.2 h
  rw [fill_after (j := g.idxOf b) (v := vb) hij.le (by simpa using (List.getElem?_eq_some_iff.1 it).1) (by rw [get_map ib, hfb])]
  · rfl
  · intro k h1 h2
    have hk : k < g.length := by simpa using h2
    have ek := List.getElem?_eq_getElem hk
    rw [get_map ek, hup _ ((asc_get hg ib ek).1.1 h1)]

end filled

/-! ### the series -/

section series
variable {V : Type}

theorem asc_index {s : Series V} (h : Ascending s) {i j : ℕ} {p q : Int × V} (hi : s[i]? = some p) (hj : s[j]? = some q)
    (hij : i < j) : p.1 < q.1 := by
  obtain ⟨h1, rfl⟩ := List.getElem?_eq_some_iff.1 hi
  obtain ⟨h2, rfl⟩ := List.getElem?_eq_some_iff.1 hj
  exact List.pairwise_iff_getElem.1 h i j h1 h2 hij

theorem asc_index_le {s : Series V} (h : Ascending s) {i j : ℕ} {p q : Int × V} (hi : s[i]? = some p) (hj : s[j]? = some q)
    (hij : i ≤ j) : p.1 ≤ q.1 := by
  rcases Nat.lt_or_ge i j with h' | h'
  · exact (asc_index h hi hj h').le
  · have : i = j := by omega
    subst this
    rw [hi] at hj; cases hj; exact le_rfl

theorem asc_last {s : Series V} (h : Ascending s) {q : Int × V} (hq : s.getLast? = some q) {p : Int × V} (hp : p ∈ s) :
    p.1 ≤ q.1 := by
  obtain ⟨i, hi⟩ := List.getElem?_of_mem hp
  have := (List.getElem?_eq_some_iff.1 hi).1
  rw [List.getLast?_eq_getElem?] at hq
  exact asc_index_le h hi hq (by omega)

theorem asc_first {s : Series V} (h : Ascending s) {q : Int × V} (hq : s.head? = some q) {p : Int × V} (hp : p ∈ s) :
    q.1 ≤ p.1 := by
  obtain ⟨i, hi⟩ := List.getElem?_of_mem hp
  rw [List.head?_eq_getElem?] at hq
  exact asc_index_le h hq hi (by omega)

/-- a mixture that gives its ends -/
structure Ends (mix : V → V → ℝ → V) (s : Series V) : Prop where
  zero : ∀ p ∈ s, ∀ q ∈ s, mix p.2 q.2 0 = p.2
  one : ∀ p ∈ s, ∀ q ∈ s, mix p.2 q.2 1 = q.2

/-- at a sample the value is the stored one -/
theorem value_sample {mix : V → V → ℝ → V} {s : Series V} (h : Ascending s) (hm : Ends mix s) {t : Int} {v w : V}
    (hv : (t, v) ∈ s) (hw : Value mix s t w) : w = v := by
  obtain ⟨k, hk⟩ := List.getElem?_of_mem hv
  cases hw with
  | @before p hp ht =>
    have h1 := asc_first h hp hv
    rw [List.head?_eq_getElem?] at hp
    by_cases hk0 : 0 < k
    · have := asc_index h hp hk hk0; simp only at this h1; omega
    · have : k = 0 := by omega
      subst this
      rw [hk] at hp; cases hp; rfl
  | @after p hp ht =>
    have h1 := asc_last h hp hv
    rw [List.getLast?_eq_getElem?] at hp
    have hl := (List.getElem?_eq_some_iff.1 hk).1
    by_cases hk0 : k < s.length - 1
    · have := asc_index h hk hp hk0; simp only at this h1; omega
    · have : k = s.length - 1 := by omega
      rw [← this, hk] at hp; cases hp; rfl
  | @between i p q hp hq h1 h2 =>
    have pm := List.mem_of_getElem? hp
    have qm := List.mem_of_getElem? hq
    have hpq := asc_index h hp hq (by omega)
    rcases Nat.lt_or_ge k (i + 1) with hki | hki
    · have e : k = i := by
        by_contra hne
        have := asc_index h hk hp (by omega); simp only at this; omega
      subst e
      rw [hk] at hp; cases hp
      simp only [sub_self, zero_div]
      exact hm.zero _ pm _ qm
    · have e : k = i + 1 := by
        by_contra hne
        have := asc_index h hq hk (by omega); simp only at this; omega
      subst e
      rw [hk] at hq; cases hq
      have hne : ((t : ℝ) - (p.1 : ℝ)) ≠ 0 := by
        have : (p.1 : ℝ) < (t : ℝ) := by exact_mod_cast hpq
        linarith
      simp only
      rw [div_self hne]
      exact hm.one _ pm _ qm

/-- the specification determines the value -/
theorem value_unique {mix : V → V → ℝ → V} {s : Series V} (h : Ascending s) (hm : Ends mix s) {t : Int} {v w : V}
    (hv : Value mix s t v) (hw : Value mix s t w) : v = w := by
  by_cases hs : ∃ u, (t, u) ∈ s
  · obtain ⟨u, hu⟩ := hs
    rw [value_sample h hm hu hv, value_sample h hm hu hw]
  have nm : ∀ p ∈ s, p.1 ≠ t := fun p hp e => hs ⟨p.2, by rw [← e]; exact hp⟩
  have fl : ∀ {i p q}, s[i]? = some p → s[i + 1]? = some q → p.1 ≤ t → t ≤ q.1 → ∀ {p'}, (s.head? = some p' → ¬ t ≤ p'.1) ∧
      (s.getLast? = some p' → ¬ p'.1 ≤ t) := by
    intro i p q hp hq h1 h2 p'
    have := nm p (List.mem_of_getElem? hp)
    have := nm q (List.mem_of_getElem? hq)
    constructor
    · intro hh ht
      have := asc_first h hh (List.mem_of_getElem? hp); omega
    · intro hh ht
      have := asc_last h hh (List.mem_of_getElem? hq); omega
  have cross : ∀ {p q}, s.head? = some p → s.getLast? = some q → t ≤ p.1 → q.1 ≤ t → False := by
    intro p q hp hq h1 h2
    have := asc_first h hp (List.mem_of_getLast? hq)
    have := nm p (List.mem_of_mem_head? hp)
    omega
  cases hv with
  | before hp ht => cases hw with
    | before hp' ht' => rw [hp] at hp'; cases hp'; rfl
    | after hq hq' => exact absurd hq' fun h' => cross hp hq ht h'
    | between a b c d => exact absurd ht (((fl a b c d).1) hp)
  | after hp ht => cases hw with
    | before hp' ht' => exact (cross hp' hp ht' ht).elim
    | after hq hq' => rw [hp] at hq; cases hq; rfl
    | between a b c d => exact absurd ht (((fl a b c d).2) hp)
  | @between i p q a b c d => cases hw with
    | before hp' ht' => exact absurd ht' (((fl a b c d).1) hp')
    | after hp' ht' => exact absurd ht' (((fl a b c d).2) hp')
    | @between j p' q' a' b' c' d' =>
      have e : i = j := by
        have n1 := nm p (List.mem_of_getElem? a)
        have n2 := nm p' (List.mem_of_getElem? a')
        rcases lt_trichotomy i j with hij | hij | hij
        · have := asc_index_le h b a' (by omega); omega
        · exact hij
        · have := asc_index_le h b' a (by omega); omega
      subst e
      rw [a] at a'; rw [b] at b'
      cases a'; cases b'; rfl

/-- the specification always has a value -/
theorem value_exists (mix : V → V → ℝ → V) {s : Series V} (h : Ascending s) (hne : s ≠ []) (t : Int) : ∃ v, Value mix s t v := by
  induction s with
  | nil => exact absurd rfl hne
  | cons p l ih =>
    cases l with
    | nil =>
      rcases le_total t p.1 with h | h
      · exact ⟨_, .before rfl h⟩
      · exact ⟨_, .after rfl h⟩
    | cons q l =>
      by_cases h1 : t ≤ p.1
      · exact ⟨_, .before rfl h1⟩
      by_cases h2 : t ≤ q.1
      · exact ⟨_, .between (i := 0) rfl rfl (by omega) h2⟩
      obtain ⟨v, hv⟩ := ih (List.pairwise_cons.1 h).2 (by simp)
      cases hv with
      | before hp ht => simp only [List.head?_cons, Option.some.injEq] at hp; subst hp; omega
      | after hp ht => exact ⟨_, .after (by simpa using hp) ht⟩
      | @between i p q a b c d => exact ⟨_, .between (i := i + 1) (by simpa using a) (by simpa using b) c d⟩

end series

/-! ### linear and step interpolation -/

section lin
variable {V : Type} [AddCommGroup V] [Module ℝ V]

theorem linMix_ends (s : Series V) : Ends linMix s := ⟨by simp [linMix], by simp [linMix]⟩

theorem linMix_eq (a b : V) (w : ℝ) : a + w • (b - a) = linMix a b w := by
  unfold linMix; module

theorem lin_spec : ∀ {s : Series V}, Ascending s → ∀ {p q : Int × V}, s.head? = some p → s.getLast? = some q → ∀ t : Int,
    (t < p.1 → lin s t = none) ∧ (q.1 < t → lin s t = none) ∧
      (p.1 ≤ t → t ≤ q.1 → ∃ v, lin s t = some v ∧ Value linMix s t v)
  | [], _, p, q, hp, _, t => by simp at hp
  | [a], _, p, q, hp, hq, t => by
    simp only [List.head?_cons, Option.some.injEq, List.getLast?_singleton] at hp hq
    subst hp; subst hq
    simp only [lin]
    refine ⟨fun h => if_neg (by omega), fun h => if_neg (by omega), fun h1 h2 => ⟨a.2, if_pos (by omega), .before rfl h2⟩⟩
  | a :: b :: l, h, p, q, hp, hq, t => by
    simp only [List.head?_cons, Option.some.injEq] at hp
    subst hp
    have hab : a.1 < b.1 := (List.pairwise_cons.1 h).1 b (by simp)
    have hq' : (b :: l).getLast? = some q := by simpa [List.getLast?_cons_cons] using hq
    have hbq := asc_last (List.pairwise_cons.1 h).2 hq' (by simp : b ∈ b :: l)
    have ih := lin_spec (s := b :: l) (List.pairwise_cons.1 h).2 rfl hq' t
    simp only [lin]
    refine ⟨fun h => if_pos h, ?_, ?_⟩
    · intro h1
      rw [if_neg (by omega), if_neg (by omega)]
      exact ih.2.1 h1
    · intro h1 h2
      rw [if_neg (by omega)]
      by_cases h3 : t ≤ b.1
      · rw [if_pos h3]
        refine ⟨_, rfl, ?_⟩
        rw [linMix_eq]
        exact .between (i := 0) rfl rfl h1 h3
      · rw [if_neg h3]
        obtain ⟨v, hv, hval⟩ := ih.2.2 (by omega) h2
        refine ⟨v, hv, ?_⟩
        cases hval with
        | before hp ht => simp only [List.head?_cons, Option.some.injEq] at hp; subst hp; omega
        | after hp ht => exact .after (by simpa using hp) ht
        | @between i p q a b c d => exact .between (i := i + 1) (by simpa using a) (by simpa using b) c d

theorem stepFill_spec : ∀ {s : Series V}, Ascending s → ∀ {p : Int × V}, s.head? = some p → ∀ t : Int,
    (t < p.1 → stepFill s t = none) ∧ (p.1 ≤ t → ∃ q ∈ s, stepFill s t = some q.2 ∧ q.1 ≤ t ∧ ∀ r ∈ s, r.1 ≤ t → r.1 ≤ q.1)
  | [], _, p, hp, t => by simp at hp
  | a :: l, h, p, hp, t => by
    simp only [List.head?_cons, Option.some.injEq] at hp
    subst hp
    simp only [stepFill]
    refine ⟨fun h => if_pos h, ?_⟩
    intro h1
    rw [if_neg (by omega)]
    cases l with
    | nil => exact ⟨a, by simp, by simp [stepFill], h1, by simp⟩
    | cons b l =>
      have ih := stepFill_spec (s := b :: l) (List.pairwise_cons.1 h).2 rfl t
      by_cases h2 : t < b.1
      · rw [ih.1 h2]
        refine ⟨a, by simp, rfl, h1, ?_⟩
        intro r hr hrt
        rw [List.mem_cons] at hr
        rcases hr with rfl | hr
        · exact le_rfl
        · have := asc_first (List.pairwise_cons.1 h).2 (q := b) rfl hr
          omega
      · obtain ⟨q, hq, he, hqt, hmax⟩ := ih.2 (by omega)
        refine ⟨q, by simp [hq], by rw [he]; rfl, hqt, ?_⟩
        intro r hr hrt
        rw [List.mem_cons] at hr
        rcases hr with rfl | hr
        · exact ((List.pairwise_cons.1 h).1 q hq).le
        · exact hmax r hr hrt

end lin

theorem mapM_forall {α β : Type} {f : α → Option β} {R : α → β → Prop} : ∀ {l : List α},
    (∀ x ∈ l, ∃ y, f x = some y ∧ R x y) → ∃ r, l.mapM f = some r ∧ List.Forall₂ R l r
  | [], _ => ⟨[], rfl, .nil⟩
  | a :: l, h => by
    obtain ⟨y, hy, hr⟩ := h a (by simp)
    obtain ⟨r, hr', hf⟩ := mapM_forall (l := l) (R := R) fun x hx => h x (by simp [hx])
    refine ⟨y :: r, ?_, .cons hr hf⟩
    rw [List.mapM_cons, hy, hr']
    rfl

theorem forall₂_mem {α β : Type} {R R' : α → β → Prop} {l : List α} {r : List β}
    (h : ∀ x ∈ l, ∀ y, R x y → R' x y) (hf : List.Forall₂ R l r) : List.Forall₂ R' l r := by
  induction hf with
  | nil => exact .nil
  | cons hv _ ih => exact .cons (h _ (by simp) _ hv) (ih fun x hx => h x (by simp [hx]))

section interp
variable {V : Type} [AddCommGroup V] [Module ℝ V]

/-- the extended index -/
theorem addEdges_spec {s : Series V} (h : Ascending s) {p q : Int × V} (hp : s.head? = some p) (hq : s.getLast? = some q)
    {ts : List Int} (ht : ts.Pairwise (· < ·)) : (addEdges s ts).Pairwise (· < ·) ∧ p.1 ∈ addEdges s ts ∧
      q.1 ∈ addEdges s ts ∧ ∀ t ∈ ts, t ∈ addEdges s ts := by
  match s, h, hp, hq with
  | [a], _, hp, hq =>
    simp only [List.head?_cons, Option.some.injEq, List.getLast?_singleton] at hp hq
    subst hp; subst hq
    have h1 : [a.1].Pairwise (· < ·) := by simp
    simp only [addEdges]
    refine ⟨union_strict ht h1, ?_, ?_, ?_⟩
    · rw [Time.mem_unionVals (sorted_le ht) (sorted_le h1)]; simp
    · rw [Time.mem_unionVals (sorted_le ht) (sorted_le h1)]; simp
    · intro t h'
      rw [Time.mem_unionVals (sorted_le ht) (sorted_le h1)]; simp [h']
  | a :: b :: l, h, hp, hq =>
    simp only [List.head?_cons, Option.some.injEq] at hp
    subst hp
    have hq' : (b :: l).getLast? = some q := by simpa [List.getLast?_cons_cons] using hq
    have hm : q ∈ b :: l := List.mem_of_getLast? hq'
    have h1 : [a.1, q.1].Pairwise (· < ·) := by
      simp only [List.pairwise_cons, List.mem_cons, List.not_mem_nil, or_false, forall_eq, List.Pairwise.nil, and_true]
      exact ⟨(List.pairwise_cons.1 h).1 q hm, by simp⟩
    have e : addEdges (a :: b :: l) ts = Time.unionVals ts [a.1, q.1] := by
      simp only [addEdges, hq]
    rw [e]
    refine ⟨union_strict ht h1, ?_, ?_, ?_⟩
    · rw [Time.mem_unionVals (sorted_le ht) (sorted_le h1)]; simp
    · rw [Time.mem_unionVals (sorted_le ht) (sorted_le h1)]; simp
    · intro t h'
      rw [Time.mem_unionVals (sorted_le ht) (sorted_le h1)]; simp [h']

/-- linear `xr_interp_like` gives the specified values at all requested times -/
theorem interp_linear {s : Series V} (h : Ascending s) (hne : s ≠ []) {ts : List Int} (ht : ts.Pairwise (· < ·)) :
    ∃ r, interpLike .linear s ts = some r ∧ List.Forall₂ (Value linMix s) ts r := by
  obtain ⟨p, hp⟩ : ∃ p, s.head? = some p := by
    cases s with
    | nil => exact absurd rfl hne
    | cons a l => exact ⟨a, rfl⟩
  obtain ⟨q, hq⟩ : ∃ q, s.getLast? = some q := ⟨_, List.getLast?_eq_some_getLast hne⟩
  obtain ⟨hg, hpg, hqg, hts⟩ := addEdges_spec h hp hq ht
  have hraw : ∀ t, raw .linear s t = lin s t := by
    intro t
    match s with
    | [] => rfl
    | [a] => rfl
    | a :: b :: l => rfl
  have hpq := asc_last h hq (List.mem_of_mem_head? hp)
  have hmap : (addEdges s ts).map (raw .linear s) = (addEdges s ts).map (lin s) := List.map_congr_left fun t _ => hraw t
  unfold interpLike
  simp only [hmap]
  apply mapM_forall
  intro t htm
  have htg := hts t htm
  by_cases h1 : t < p.1
  · obtain ⟨v, hv, hval⟩ := (lin_spec h hp hq p.1).2.2 le_rfl hpq
    refine ⟨_, filled_before hg hpg hv (fun u hu => (lin_spec h hp hq u).1 hu) htg h1, ?_⟩
    have : v = p.2 := value_sample h (linMix_ends s) (List.mem_of_mem_head? hp) hval
    rw [this]
    exact .before hp h1.le
  by_cases h2 : q.1 < t
  · obtain ⟨v, hv, hval⟩ := (lin_spec h hp hq q.1).2.2 hpq le_rfl
    refine ⟨_, filled_after hg hqg hv (fun u hu => (lin_spec h hp hq u).2.1 hu) htg h2, ?_⟩
    have : v = q.2 := value_sample h (linMix_ends s) (List.mem_of_getLast? hq) hval
    rw [this]
    exact .after hq h2.le
  · obtain ⟨v, hv, hval⟩ := (lin_spec h hp hq t).2.2 (by omega) (by omega)
    exact ⟨v, filled_some htg hv, hval⟩

/-- `xr_interp_like` with steps gives the specified values at all requested times -/
theorem interp_step {s : Series V} (h : Ascending s) (hne : s ≠ []) {ts : List Int} (ht : ts.Pairwise (· < ·)) :
    ∃ r, interpLike .step s ts = some r ∧ List.Forall₂ (StepValue s) ts r := by
  obtain ⟨p, hp⟩ : ∃ p, s.head? = some p := by
    cases s with
    | nil => exact absurd rfl hne
    | cons a l => exact ⟨a, rfl⟩
  obtain ⟨q, hq⟩ : ∃ q, s.getLast? = some q := ⟨_, List.getLast?_eq_some_getLast hne⟩
  obtain ⟨hg, hpg, hqg, hts⟩ := addEdges_spec h hp hq ht
  by_cases hsingle : ∃ a, s = [a]
  · obtain ⟨a, rfl⟩ := hsingle
    simp only [List.head?_cons, Option.some.injEq, List.getLast?_singleton] at hp hq
    subst hp
    unfold interpLike
    apply mapM_forall
    intro t htm
    have htg := hts t htm
    have ha : raw .step [a] a.1 = some a.2 := by simp [raw]
    refine ⟨a.2, ?_, ?_⟩
    · rcases lt_trichotomy t a.1 with h1 | h1 | h1
      · exact filled_before hg hpg ha (fun u hu => by simp only [raw]; rw [if_neg (by omega)]) htg h1
      · rw [h1] at htg ⊢
        exact filled_some htg ha
      · exact filled_after hg hpg ha (fun u hu => by simp only [raw]; rw [if_neg (by omega)]) htg h1
    · rcases le_total t a.1 with h1 | h1
      · exact .before rfl h1
      · exact .at (List.mem_singleton.2 rfl) h1 (by simp)
  have hraw : ∀ t, raw .step s t = stepFill s t := by
    intro t
    match s, hsingle with
    | [], _ => rfl
    | [a], h => exact absurd ⟨a, rfl⟩ h
    | a :: b :: l, _ => rfl
  have hmap : (addEdges s ts).map (raw .step s) = (addEdges s ts).map (stepFill s) := List.map_congr_left fun t _ => hraw t
  unfold interpLike
  simp only [hmap]
  apply mapM_forall
  intro t htm
  have htg := hts t htm
  by_cases h1 : t < p.1
  · obtain ⟨r, hr, he, h2, h3⟩ := (stepFill_spec h hp p.1).2 le_rfl
    refine ⟨_, filled_before hg hpg he (fun u hu => (stepFill_spec h hp u).1 hu) htg h1, ?_⟩
    have hpm := List.mem_of_mem_head? hp
    have h4 := h3 p hpm le_rfl
    have : r = p := by
      obtain ⟨i, hi⟩ := List.getElem?_of_mem hr
      rw [List.head?_eq_getElem?] at hp
      by_cases hi0 : 0 < i
      · have := asc_index h hp hi hi0; omega
      · have : i = 0 := by omega
        subst this
        rw [hi] at hp; cases hp; rfl
    rw [this]
    exact .before hp h1.le
  · obtain ⟨r, hr, he, h2, h3⟩ := (stepFill_spec h hp t).2 (by omega)
    exact ⟨_, filled_some htg he, .at hr h2 h3⟩

end interp

/-! ### orientations -/

theorem slerpAt_spec (S : Slerp) : ∀ {s : Series (Mat3 ℝ)}, Ascending s → ∀ {p q : Int × Mat3 ℝ}, s.head? = some p →
    s.getLast? = some q → ∀ t : Int, p.1 ≤ t → t ≤ q.1 → Value S s t (slerpAt S s t)
  | [], _, p, q, hp, _, t, _, _ => by simp at hp
  | [a], _, p, q, hp, hq, t, h1, h2 => by
    simp only [List.head?_cons, Option.some.injEq, List.getLast?_singleton] at hp hq
    subst hp; subst hq
    exact .before rfl h2
  | a :: b :: l, h, p, q, hp, hq, t, h1, h2 => by
    simp only [List.head?_cons, Option.some.injEq] at hp
    subst hp
    have hq' : (b :: l).getLast? = some q := by simpa [List.getLast?_cons_cons] using hq
    simp only [slerpAt]
    by_cases h3 : t ≤ b.1
    · rw [if_pos h3]
      exact .between (i := 0) rfl rfl h1 h3
    · rw [if_neg h3]
      have ih := slerpAt_spec S (s := b :: l) (List.pairwise_cons.1 h).2 rfl hq' t (by omega) h2
      generalize slerpAt S (b :: l) t = v at ih
      cases ih with
      | before hp ht => simp only [List.head?_cons, Option.some.injEq] at hp; subst hp; omega
      | after hp ht => exact .after (by simpa using hp) ht
      | @between i p q a b c d => exact .between (i := i + 1) (by simpa using a) (by simpa using b) c d

/-- the interpolation of orientations gives the specified values at all requested times -/
theorem interp_orientation {S : Slerp} {s : Series (Mat3 ℝ)} (h : Ascending s) (hne : s ≠ []) (hS : Ends S s) {ts : List Int}
    (ht : ts.Pairwise (· < ·)) : ∃ r, interpOrientation S s ts = some r ∧ List.Forall₂ (Value S s) ts r := by
  match s, hne with
  | [p], _ =>
    refine ⟨_, rfl, ?_⟩
    rw [List.forall₂_map_right_iff, List.forall₂_same]
    intro t _
    rcases le_total t p.1 with h1 | h1
    · exact .before rfl h1
    · exact .after rfl h1
  | p :: b :: l, _ =>
    obtain ⟨q, hq⟩ : ∃ q, (p :: b :: l).getLast? = some q := ⟨_, List.getLast?_eq_some_getLast (by simp)⟩
    have hq' : (b :: l).getLast? = some q := by simpa [List.getLast?_cons_cons] using hq
    have hpq : p.1 < q.1 := (List.pairwise_cons.1 h).1 q (List.mem_of_getLast? hq')
    have hl : [p.1, q.1].Pairwise (· < ·) := by simp [hpq]
    set u := Time.unionVals ts [p.1, q.1] with hu
    set w := u.filter fun t => p.1 ≤ t ∧ t ≤ q.1 with hw
    have hus : u.Pairwise (· < ·) := union_strict ht hl
    have hws : w.Pairwise (· < ·) := hus.filter _
    have hmem : ∀ t, t ∈ w ↔ (t ∈ ts ∨ t = p.1 ∨ t = q.1) ∧ p.1 ≤ t ∧ t ≤ q.1 := by
      intro t
      rw [hw, List.mem_filter, hu, Time.mem_unionVals (sorted_le ht) (sorted_le hl)]
      simp
    set d : Series (Mat3 ℝ) := w.map fun t => (t, slerpAt S (p :: b :: l) t) with hd
    have hda : Ascending d := by
      unfold Ascending
      rw [hd, List.pairwise_map]
      exact hws.imp fun h => h
    have hmd : ∀ t, t ∈ w → (t, slerpAt S (p :: b :: l) t) ∈ d := fun t h => List.mem_map_of_mem h
    have hpd := hmd p.1 ((hmem _).2 ⟨.inr (.inl rfl), le_rfl, hpq.le⟩)
    have hqd := hmd q.1 ((hmem _).2 ⟨.inr (.inr rfl), hpq.le, le_rfl⟩)
    have hdr : ∀ x ∈ d, p.1 ≤ x.1 ∧ x.1 ≤ q.1 ∧ x.2 = slerpAt S (p :: b :: l) x.1 := by
      intro x hx
      rw [hd, List.mem_map] at hx
      obtain ⟨t, htw, rfl⟩ := hx
      exact ⟨((hmem t).1 htw).2.1, ((hmem t).1 htw).2.2, rfl⟩
    have hdne : d ≠ [] := List.ne_nil_of_mem hpd
    obtain ⟨r, hr, hf⟩ := interp_linear hda hdne ht
    refine ⟨r, ?_, ?_⟩
    · simp only [interpOrientation, hq]
      exact hr
    · have ep : slerpAt S (p :: b :: l) p.1 = p.2 :=
        value_sample h hS (by simp) (slerpAt_spec S h rfl hq p.1 le_rfl hpq.le)
      have eq : slerpAt S (p :: b :: l) q.1 = q.2 :=
        value_sample h hS (List.mem_of_getLast? hq) (slerpAt_spec S h rfl hq q.1 hpq.le le_rfl)
      have key : ∀ t ∈ ts, ∀ v, Value linMix d t v → Value S (p :: b :: l) t v := by
        intro t htm v hv
        by_cases hr : p.1 ≤ t ∧ t ≤ q.1
        · have := value_sample hda (linMix_ends d) (hmd t ((hmem t).2 ⟨.inl htm, hr⟩)) hv
          rw [this]
          exact slerpAt_spec S h rfl hq t hr.1 hr.2
        · cases hv with
          | @before x hx htx =>
            have hxm := List.mem_of_mem_head? hx
            have h1 := asc_first hda hx hpd
            obtain ⟨h2, h3, h4⟩ := hdr x hxm
            have e : x.1 = p.1 := le_antisymm h1 h2
            rw [h4, e, ep]
            exact .before rfl (by omega)
          | @after x hx htx =>
            have hxm := List.mem_of_getLast? hx
            have h1 := asc_last hda hx hqd
            obtain ⟨h2, h3, h4⟩ := hdr x hxm
            have e : x.1 = q.1 := le_antisymm h3 h1
            rw [h4, e, eq]
            exact .after hq (by omega)
          | @between i x y a b c d =>
            have := hdr x (List.mem_of_getElem? a)
            have := hdr y (List.mem_of_getElem? b)
            omega
      exact forall₂_mem key hf

end Weldx.Ip
