import Mathlib.Data.Nat.Digits.Defs
import Mathlib.Data.List.Induction
import Verif.Version.Model

/-!
# Properties of version selection (C39, C55)
-/

namespace Weldx.Ver

/-! ## Specification vocabulary -/

/-- the number at a place of a version; missing numbers are zero -/
def place (v : List ℕ) (i : ℕ) : ℕ := (v[i]?).getD 0

/-- order of versions: the first place where they differ decides -/
def Older (v w : List ℕ) : Prop := ∃ i, (∀ j < i, place v j = place w j) ∧ place v i < place w i

/-! ## Lemmas -/

theorem older_cons {x y : ℕ} {v w : List ℕ} : Older (x :: v) (y :: w) ↔ x < y ∨ (x = y ∧ Older v w) := by
  constructor
  · rintro ⟨i, h1, h2⟩
    cases i with
    | zero => exact .inl (by simpa [place] using h2)
    | succ i =>
      right
      refine ⟨by simpa [place] using h1 0 (by omega), i, fun j hj => ?_, by simpa [place] using h2⟩
      simpa [place] using h1 (j + 1) (by omega)
  · rintro (h | ⟨rfl, i, h1, h2⟩)
    · exact ⟨0, by simp, by simpa [place] using h⟩
    · refine ⟨i + 1, fun j hj => ?_, by simpa [place] using h2⟩
      cases j with
      | zero => rfl
      | succ j => simpa [place] using h1 j (by omega)

theorem not_older_nil {v : List ℕ} : ¬ Older v [] := by
  rintro ⟨i, -, h⟩
  simp [place] at h

theorem older_nil {w : List ℕ} : Older [] w ↔ key w ≠ [] := by
  induction w with
  | nil => simp [key, not_older_nil]
  | cons y t ih =>
    have : Older [] (y :: t) ↔ Older (0 :: []) (y :: t) := by
      have hp : ∀ i, place [] i = place [0] i := by
        intro i; cases i <;> simp [place]
      unfold Older
      simp only [hp]
    rw [this, older_cons, ih]
    simp only [key]
    by_cases hy : y = 0
    · subst hy
      by_cases hk : key t = [] <;> simp [hk]
    · simp only [hy, false_and, if_false, ne_eq, reduceCtorEq, not_false_eq_true, iff_true]
      left; omega

theorem cons_lt {x y : ℕ} {v w : List ℕ} : (x :: v) < (y :: w) ↔ x < y ∨ (x = y ∧ v < w) := List.cons_lt_cons_iff

/-- the comparison of the sort keys is the order of versions -/
theorem key_lt {v w : List ℕ} : key v < key w ↔ Older v w := by
  induction v generalizing w with
  | nil =>
    rw [older_nil]
    cases h : key w with
    | nil => simp [key]
    | cons a t => simp [key]
  | cons x t ih =>
    cases w with
    | nil => simp [key, not_older_nil]
    | cons y u =>
      rw [older_cons, ← ih]
      by_cases hx : x = 0 ∧ key t = []
      · have h1 : key (x :: t) = [] := by rw [key, if_pos hx]
        rw [h1, hx.2, hx.1]
        by_cases hy : y = 0 ∧ key u = []
        · have h2 : key (y :: u) = [] := by rw [key, if_pos hy]
          rw [h2, hy.1, hy.2]
          simp
        · have h2 : key (y :: u) = y :: key u := by rw [key, if_neg hy]
          rw [h2]
          simp only [List.nil_lt_cons, true_iff]
          by_cases hy0 : y = 0
          · right
            refine ⟨hy0.symm, ?_⟩
            cases hk : key u with
            | nil => exact absurd ⟨hy0, hk⟩ hy
            | cons a t => simp
          · left; omega
      · have h1 : key (x :: t) = x :: key t := by rw [key, if_neg hx]
        rw [h1]
        by_cases hy : y = 0 ∧ key u = []
        · have h2 : key (y :: u) = [] := by rw [key, if_pos hy]
          rw [h2, hy.1, hy.2]
          simp
        · have h2 : key (y :: u) = y :: key u := by rw [key, if_neg hy]
          rw [h2, cons_lt]

/-- the last element of a sorted list is a maximum -/
theorem getLast_mergeSort {α β : Type} [LinearOrder β] (f : α → β) (l : List α) (hl : l ≠ []) :
    ∃ t, (l.mergeSort fun a b => f a ≤ f b).getLast? = some t ∧ t ∈ l ∧ ∀ u ∈ l, f u ≤ f t := by
  have hp := List.mergeSort_perm l (fun a b => decide (f a ≤ f b))
  have hs := List.pairwise_mergeSort (le := fun a b => decide (f a ≤ f b))
    (by intro a b c h1 h2; simp only [decide_eq_true_eq] at *; exact le_trans h1 h2)
    (by intro a b; simp only [Bool.or_eq_true, decide_eq_true_eq]; exact le_total _ _) l
  generalize (l.mergeSort fun a b => decide (f a ≤ f b)) = s at hp hs
  have hne : s ≠ [] := by
    rintro rfl
    exact hl hp.symm.eq_nil
  obtain ⟨s', t, rfl⟩ : ∃ s' t, s = s' ++ [t] := ⟨s.dropLast, s.getLast hne, (List.dropLast_append_getLast hne).symm⟩
  refine ⟨t, by simp, hp.mem_iff.1 (by simp), ?_⟩
  intro u hu
  rcases List.mem_append.1 (hp.mem_iff.2 hu) with h | h
  · have := (List.pairwise_append.1 hs).2.2 u h t (by simp)
    simpa using this
  · simp only [List.mem_singleton] at h; rw [h]

/-! ## C39 -/

/-- **C39** (highest version): a tag that is returned matches the pattern, no matching tag has a newer version, and all matching tags
start with its base; the result is `None` exactly if nothing matches. -/
theorem C39_highest {pattern : List Char → Bool} {all : List (List Char)} {r : Option (List Char)}
    (h : highest pattern all = .ok r) :
    (r = none ↔ ∀ t ∈ all, pattern t = false) ∧
    ∀ t, r = some t → t ∈ all ∧ pattern t = true ∧
      ∀ u ∈ all, pattern u = true → (rpartition t).1 <+: u ∧
        ∃ v w, tagVersion? t = some v ∧ tagVersion? u = some w ∧ ¬ Older v w := by
  unfold highest at h
  split at h
  · rename_i hnil
    cases h
    refine ⟨⟨fun _ t ht => ?_, fun _ => rfl⟩, by simp⟩
    have := List.filter_eq_nil_iff.1 hnil t ht
    simpa using this
  · rename_i hnil
    split at h
    · cases h
    · rename_i hver
      obtain ⟨t, h1, h2, h3⟩ := getLast_mergeSort tagKey (all.filter pattern) hnil
      rw [h1] at h
      simp only at h
      split at h
      · rename_i hpre
        cases h
        obtain ⟨ht1, ht2⟩ := List.mem_filter.1 h2
        refine ⟨⟨by simp, fun hn => ?_⟩, ?_⟩
        · rw [hn t ht1] at ht2; cases ht2
        · intro t' ht'
          cases ht'
          refine ⟨ht1, ht2, fun u hu hpu => ?_⟩
          have humem : u ∈ all.filter pattern := List.mem_filter.2 ⟨hu, hpu⟩
          refine ⟨hpre u humem, ?_⟩
          cases hv : tagVersion? t with
          | none => exact absurd ⟨t, h2, hv⟩ hver
          | some v =>
            cases hw : tagVersion? u with
            | none => exact absurd ⟨u, humem, hw⟩ hver
            | some w =>
              refine ⟨v, w, rfl, rfl, ?_⟩
              rw [← key_lt]
              have := h3 u humem
              simp only [tagKey, hv, hw, Option.getD_some] at this
              exact not_lt.2 this
      · cases h

/-- **C39** (one base): if all matching tags have a version and the same base, the highest one is found. -/
theorem C39_one_base {pattern : List Char → Bool} {all : List (List Char)} {base : List Char}
    (hv : ∀ t ∈ all, pattern t = true → tagVersion? t ≠ none)
    (hb : ∀ t ∈ all, pattern t = true → (rpartition t).1 = base ∧ base <+: t) : ∃ r, highest pattern all = .ok r := by
  unfold highest
  split
  · exact ⟨_, rfl⟩
  · rename_i hnil
    rw [if_neg]
    · obtain ⟨t, h1, h2, -⟩ := getLast_mergeSort tagKey (all.filter pattern) hnil
      rw [h1]
      simp only
      rw [if_pos]
      · exact ⟨_, rfl⟩
      · intro u hu
        obtain ⟨a, b⟩ := List.mem_filter.1 h2
        obtain ⟨c, d⟩ := List.mem_filter.1 hu
        rw [(hb t a b).1]
        exact (hb u c d).2
    · rintro ⟨t, ht, hn⟩
      obtain ⟨a, b⟩ := List.mem_filter.1 ht
      exact hv t a b hn

theorem rpart?_eq {s a b : List Char} (h : rpart? s = some (a, b)) : s = a ++ '-' :: b := by
  induction s generalizing a with
  | nil => simp [rpart?] at h
  | cons c t ih =>
    simp only [rpart?] at h
    cases hr : rpart? t with
    | none =>
      rw [hr] at h
      simp only at h
      split at h
      · rename_i hc
        obtain ⟨rfl, rfl⟩ := Prod.mk.inj (Option.some.inj h)
        simp [hc]
      · cases h
    | some p =>
      obtain ⟨a', b'⟩ := p
      rw [hr] at h
      simp only at h
      obtain ⟨rfl, rfl⟩ := Prod.mk.inj (Option.some.inj h)
      rw [ih hr]
      rfl

/-- the base of a tag is a prefix of it (so `C39_one_base` needs equal bases only) -/
theorem base_prefix (t : List Char) : (rpartition t).1 <+: t := by
  unfold rpartition
  cases h : rpart? t with
  | none => simp
  | some p =>
    obtain ⟨a, b⟩ := p
    exact ⟨'-' :: b, (rpart?_eq h).symm⟩

/-- **C39** (several bases): two matching tags of which neither starts with the base of the other are rejected. -/
theorem C39_ambiguous {pattern : List Char → Bool} {all : List (List Char)}
    (hv : ∀ t ∈ all, pattern t = true → tagVersion? t ≠ none)
    (ha : ∀ t ∈ all, pattern t = true → ∃ u ∈ all, pattern u = true ∧ ¬ (rpartition t).1 <+: u) (hne : ∃ t ∈ all, pattern t = true) :
    highest pattern all = .error .valueError := by
  have hnil : all.filter pattern ≠ [] := by
    obtain ⟨t, h1, h2⟩ := hne
    exact List.ne_nil_of_mem (List.mem_filter.2 ⟨h1, h2⟩)
  unfold highest
  rw [if_neg hnil, if_neg]
  · obtain ⟨t, h1, h2, -⟩ := getLast_mergeSort tagKey (all.filter pattern) hnil
    rw [h1]
    simp only
    rw [if_neg]
    intro hall
    obtain ⟨a, b⟩ := List.mem_filter.1 h2
    obtain ⟨u, c, d, e⟩ := ha t a b
    exact e (hall u (List.mem_filter.2 ⟨c, d⟩))
  · rintro ⟨t, ht, hn⟩
    obtain ⟨a, b⟩ := List.mem_filter.1 ht
    exact hv t a b hn

theorem highest_two {s t : List Char} {v w : List ℕ} (hs : tagVersion? s = some v) (ht : tagVersion? t = some w)
    (hvw : Older v w) (hb : (rpartition t).1 <+: s) : highest (fun _ => true) [s, t] = .ok (some t) := by
  unfold highest
  have hf : [s, t].filter (fun _ => true) = [s, t] := by simp
  rw [hf, if_neg (by simp), if_neg (by simp [hs, ht])]
  obtain ⟨x, h1, h2, h3⟩ := getLast_mergeSort tagKey [s, t] (by simp)
  have hx : x = t := by
    simp only [List.mem_cons, List.not_mem_nil, or_false] at h2
    rcases h2 with rfl | rfl
    · have := h3 t (by simp)
      simp only [tagKey, hs, ht, Option.getD_some] at this
      exact absurd (key_lt.2 hvw) (not_lt.2 this)
    · rfl
  rw [h1, hx]
  simp only
  rw [if_pos]
  intro u hu
  simp only [List.mem_cons, List.not_mem_nil, or_false] at hu
  rcases hu with rfl | rfl
  · exact hb
  · exact base_prefix u

/-- **C39** (not all ambiguous patterns are rejected): if the base of the highest tag is a prefix of another base, the tag of the other
base is accepted as a lower version. Here `file-0.2.0` and `file_x-0.1.0` match. -/
theorem C39_prefix :
    (rpartition "file-0.2.0".toList).1 = "file".toList ∧ (rpartition "file_x-0.1.0".toList).1 = "file_x".toList ∧
    highest (fun _ => true) ["file_x-0.1.0".toList, "file-0.2.0".toList] = .ok (some "file-0.2.0".toList) := by
  refine ⟨by decide, by decide, ?_⟩
  exact highest_two (v := [0, 1, 0]) (w := [0, 2, 0]) (by decide) (by decide)
    ⟨1, by intro j hj; obtain rfl : j = 0 := by omega
           rfl, by decide⟩ (by decide)

/-- **C39** (`select_tag`): the tag that is selected for writing is the last one in alphabetical order. -/
theorem C39_select {tags : List (List Char)} (h : tags ≠ []) :
    ∃ t, selectTag tags = some t ∧ t ∈ tags ∧ ∀ u ∈ tags, u ≤ t := getLast_mergeSort id tags h

/-- **C39** (`select_tag` is not numerical): of the versions 0.9.0 and 0.10.0 of a tag the older one is selected. -/
theorem C39_select_counterexample :
    selectTag ["a-0.10.0".toList, "a-0.9.0".toList] = some "a-0.9.0".toList ∧
    tagVersion? "a-0.10.0".toList = some [0, 10, 0] ∧ tagVersion? "a-0.9.0".toList = some [0, 9, 0] ∧
    Older [0, 9, 0] [0, 10, 0] := by
  refine ⟨?_, by decide, by decide, 1, ?_, by decide⟩
  · obtain ⟨t, h1, h2, h3⟩ := C39_select (tags := ["a-0.10.0".toList, "a-0.9.0".toList]) (by simp)
    simp only [List.mem_cons, List.not_mem_nil, or_false] at h2
    rcases h2 with rfl | rfl
    · have := h3 _ (List.mem_cons_of_mem _ (List.mem_cons_self))
      exact absurd this (by decide)
    · exact h1
  · intro j hj
    obtain rfl : j = 0 := by omega
    rfl

/-- the tag `base-a.b.c` for digits `a`, `b`, `c` -/
def digitTag (base : List Char) (a b c : Char) : List Char := base ++ ['-', a, '.', b, '.', c]

theorem append_lt {p x y : List Char} : p ++ x < p ++ y ↔ x < y := by
  induction p with
  | nil => rfl
  | cons c t ih =>
    rw [List.cons_append, List.cons_append, List.cons_lt_cons_iff, ih]
    simp

theorem rpart?_none {s : List Char} (h : '-' ∉ s) : rpart? s = none := by
  induction s with
  | nil => rfl
  | cons c t ih =>
    simp only [List.mem_cons, not_or] at h
    simp [rpart?, ih h.2, Ne.symm h.1]

theorem rpart?_append {b s : List Char} (h : '-' ∉ s) : rpart? (b ++ '-' :: s) = some (b, s) := by
  induction b with
  | nil => simp [rpart?, rpart?_none h]
  | cons c t ih => simp [rpart?, ih]

theorem digit_ne {c d : Char} (h : c.isDigit = true) (hd : d.isDigit = false) : c ≠ d := by
  rintro rfl
  rw [h] at hd
  cases hd

theorem digitTag_version {base : List Char} {a b c : Char} (ha : a.isDigit = true) (hb : b.isDigit = true)
    (hc : c.isDigit = true) : tagVersion? (digitTag base a b c) = some [a.toNat - 48, b.toNat - 48, c.toNat - 48] := by
  have hm : ∀ {x : Char}, x.isDigit = true → ¬ '-' = x := fun h h' => digit_ne h (by decide) h'.symm
  have hp : ∀ {x : Char}, x.isDigit = true → x ≠ '.' := fun h => digit_ne h (by decide)
  have h1 : rpartition (digitTag base a b c) = (base, [a, '.', b, '.', c]) := by
    unfold rpartition digitTag
    rw [rpart?_append]
    · rfl
    · simp [hm ha, hm hb, hm hc]
  unfold tagVersion?
  rw [h1]
  have h2 : splitPoints [a, '.', b, '.', c] = [[a], [b], [c]] := by
    simp [splitPoints, hp ha, hp hb, hp hc]
  have h3 : ∀ {x : Char}, x.isDigit = true → number? [x] = some (x.toNat - 48) := by
    intro x hx
    simp [number?, hx]
  simp only [version?, h2, List.map_cons, List.map_nil, h3 ha, h3 hb, h3 hc, allSome, Option.map_some]

theorem char_lt {a b : Char} (ha : a.isDigit = true) (hb : b.isDigit = true) : a < b ↔ a.toNat - 48 < b.toNat - 48 := by
  have key : ∀ x : Char, x.isDigit = true → 48 ≤ x.toNat := by
    intro x hx
    simp only [Char.isDigit, Bool.and_eq_true, decide_eq_true_eq] at hx
    have := hx.1
    exact UInt32.le_iff_toNat_le.1 this
  have h1 := key a ha
  have h2 := key b hb
  have h3 : a < b ↔ a.toNat < b.toNat := by
    show a.val < b.val ↔ _
    rw [UInt32.lt_iff_toNat_lt]
    rfl
  rw [h3]
  omega

/-- **C39** (`select_tag` for one digit numbers): for tags with the same base and versions of three digits the selected tag has the
newest version. What is missing for the full claim: numbers with several digits (see the counterexample). -/
theorem C39_select_digits_partial {tags : List (List Char)} {base : List Char} (hne : tags ≠ [])
    (h : ∀ t ∈ tags, ∃ a b c : Char, a.isDigit = true ∧ b.isDigit = true ∧ c.isDigit = true ∧ t = digitTag base a b c) :
    ∃ t v, selectTag tags = some t ∧ t ∈ tags ∧ tagVersion? t = some v ∧
      ∀ u ∈ tags, ∃ w, tagVersion? u = some w ∧ ¬ Older v w := by
  obtain ⟨t, h1, h2, h3⟩ := C39_select hne
  obtain ⟨a, b, c, ha, hb, hc, rfl⟩ := h t h2
  refine ⟨_, _, h1, h2, digitTag_version ha hb hc, ?_⟩
  intro u hu
  obtain ⟨a', b', c', ha', hb', hc', rfl⟩ := h u hu
  refine ⟨_, digitTag_version ha' hb' hc', ?_⟩
  intro hold
  have hle := h3 _ hu
  apply not_lt.2 hle
  unfold digitTag
  rw [append_lt]
  rw [older_cons, older_cons, older_cons] at hold
  have heq : ∀ {x y : Char}, x.isDigit = true → y.isDigit = true → x.toNat - 48 = y.toNat - 48 → x = y := by
    intro x y hx hy hxy
    rcases lt_trichotomy x y with h | h | h
    · have := (char_lt hx hy).1 h; omega
    · exact h
    · have := (char_lt hy hx).1 h; omega
  simp only [List.cons_lt_cons_iff, lt_irrefl, true_and, false_or]
  rcases hold with h | ⟨h, h' | ⟨h', h'' | ⟨h'', h3⟩⟩⟩
  · exact .inl ((char_lt ha ha').2 h)
  · exact .inr ⟨heq ha ha' h, .inl ((char_lt hb hb').2 h')⟩
  · exact .inr ⟨heq ha ha' h, .inr ⟨heq hb hb' h', .inl ((char_lt hc hc').2 h'')⟩⟩
  · exact absurd h3 not_older_nil

/-! ### Examples -/

/-- versions 0.9, 0.10.0 and 0.2.1 of a tag: 0.10.0 is the highest -/
example : highest (fun _ => true) ["t-0.9".toList, "t-0.10.0".toList] = .ok (some "t-0.10.0".toList) :=
  highest_two (v := [0, 9]) (w := [0, 10, 0]) (by decide) (by decide)
    ⟨1, by intro j hj; obtain rfl : j = 0 := by omega
           rfl, by decide⟩ (by decide)

example : digitTag "t".toList '0' '1' '3' = "t-0.1.3".toList := by decide

/-! ## C55 -/

section Standards
variable {C : Type}

/-- the last manifest with the given version -/
def LastWith (ms : List (Manifest C)) (v : V3) (m : Manifest C) : Prop :=
  m.version = v ∧ ∃ pre post, ms = pre ++ m :: post ∧ ∀ m' ∈ post, m'.version ≠ v

theorem addAll_spec {ms : List (Manifest C)} {n : String} {v : V3} {vs : List (V3 × C)} :
    ((∃ m ∈ ms, m.name ≠ n) → Standard.addAll ⟨some n, some v, vs⟩ ms = .error .valueError) ∧
    ((∀ m ∈ ms, m.name = n) → ∃ w vs', Standard.addAll ⟨some n, some v, vs⟩ ms = .ok ⟨some n, some w, vs'⟩ ∧
      v ≤ w ∧ (w = v ∨ ∃ m ∈ ms, m.version = w) ∧ (∀ m ∈ ms, m.version ≤ w) ∧
      ∀ x, (∀ m, LastWith ms x m → Dict.get? vs' x = some m.content) ∧
        ((∀ m ∈ ms, m.version ≠ x) → Dict.get? vs' x = Dict.get? vs x)) := by
  induction ms generalizing v vs with
  | nil =>
    refine ⟨by simp, fun _ => ⟨v, vs, rfl, le_refl _, .inl rfl, by simp, fun x => ⟨?_, fun _ => rfl⟩⟩⟩
    rintro m ⟨-, pre, post, h, -⟩
    simp at h
  | cons m t ih =>
    by_cases hm : m.name = n
    · obtain ⟨ih1, ih2⟩ := @ih (if v < m.version then m.version else v) (Dict.set vs m.version m.content)
      have hstep : Standard.addAll ⟨some n, some v, vs⟩ (m :: t) =
          Standard.addAll ⟨some n, some (if v < m.version then m.version else v), Dict.set vs m.version m.content⟩ t := by
        simp [Standard.addAll, Standard.add, hm]
      rw [hstep]
      constructor
      · rintro ⟨x, hx, hne⟩
        rcases List.mem_cons.1 hx with rfl | hx
        · exact absurd hm hne
        · exact ih1 ⟨x, hx, hne⟩
      · intro hall
        obtain ⟨w, vs', h1, h2, h3, h4, h5⟩ := ih2 (fun x hx => hall x (by simp [hx]))
        refine ⟨w, vs', h1, ?_, ?_, ?_, ?_⟩
        · refine le_trans ?_ h2
          split
          · rename_i h; exact le_of_lt h
          · exact le_refl _
        · rcases h3 with h3 | ⟨x, hx, hxw⟩
          · split at h3
            · exact .inr ⟨m, by simp, h3.symm⟩
            · exact .inl h3
          · exact .inr ⟨x, by simp [hx], hxw⟩
        · intro x hx
          rcases List.mem_cons.1 hx with rfl | hx
          · refine le_trans ?_ h2
            split
            · exact le_refl _
            · rename_i h; exact not_lt.1 h
          · exact h4 x hx
        · intro x
          constructor
          · rintro m' ⟨hv', pre, post, hsplit, hpost⟩
            cases pre with
            | nil =>
              simp only [List.nil_append, List.cons.injEq] at hsplit
              obtain ⟨rfl, rfl⟩ := hsplit
              rw [(h5 x).2 hpost, Dict.get?_set, if_pos hv'.symm]
            | cons p pre =>
              simp only [List.cons_append, List.cons.injEq] at hsplit
              exact (h5 x).1 m' ⟨hv', pre, post, hsplit.2, hpost⟩
          · intro hno
            rw [(h5 x).2 (fun y hy => hno y (by simp [hy])), Dict.get?_set, if_neg]
            exact fun h => hno m (by simp) h.symm
    · constructor
      · intro _
        simp [Standard.addAll, Standard.add, hm]
      · intro hall
        exact absurd (hall m (by simp)) hm

theorem create_spec {m : Manifest C} {t : List (Manifest C)} :
    ((∃ x ∈ t, x.name ≠ m.name) → Standard.create (m :: t) = .error .valueError) ∧
    ((∀ x ∈ t, x.name = m.name) → ∃ w vs', Standard.create (m :: t) = .ok ⟨some m.name, some w, vs'⟩ ∧
      (∃ x ∈ m :: t, x.version = w) ∧ (∀ x ∈ m :: t, x.version ≤ w) ∧
      ∀ x, (∀ y, LastWith (m :: t) x y → Dict.get? vs' x = some y.content) ∧
        ((∀ y ∈ m :: t, y.version ≠ x) → Dict.get? vs' x = none)) := by
  have hstep : Standard.create (m :: t) = Standard.addAll ⟨some m.name, some m.version, [(m.version, m.content)]⟩ t := by
    simp [Standard.create, Standard.addAll, Standard.add, Dict.set]
  obtain ⟨h1, h2⟩ := @addAll_spec C t m.name m.version [(m.version, m.content)]
  rw [hstep]
  refine ⟨h1, fun h => ?_⟩
  obtain ⟨w, vs', a, b, c, d, e⟩ := h2 h
  refine ⟨w, vs', a, ?_, ?_, ?_⟩
  · rcases c with c | ⟨x, hx, c⟩
    · exact ⟨m, by simp, c.symm⟩
    · exact ⟨x, by simp [hx], c⟩
  · intro x hx
    rcases List.mem_cons.1 hx with rfl | hx
    · exact b
    · exact d x hx
  · intro x
    constructor
    · rintro y ⟨hv, pre, post, hsplit, hpost⟩
      cases pre with
      | nil =>
        simp only [List.nil_append, List.cons.injEq] at hsplit
        obtain ⟨rfl, rfl⟩ := hsplit
        rw [(e x).2 hpost]
        simp [Dict.get?, hv]
      | cons p pre =>
        simp only [List.cons_append, List.cons.injEq] at hsplit
        exact (e x).1 y ⟨hv, pre, post, hsplit.2, hpost⟩
    · intro hno
      rw [(e x).2 (fun y hy => hno y (by simp [hy]))]
      simp [Dict.get?, hno m (by simp)]

theorem exists_lastWith {ms : List (Manifest C)} {v : V3} (h : ∃ m ∈ ms, m.version = v) : ∃ m, LastWith ms v m := by
  induction ms with
  | nil => simp at h
  | cons a t ih =>
    by_cases ht : ∃ m ∈ t, m.version = v
    · obtain ⟨m, hv, pre, post, hs, hp⟩ := ih ht
      exact ⟨m, hv, a :: pre, post, by rw [hs]; rfl, hp⟩
    · obtain ⟨m, hm, hv⟩ := h
      rcases List.mem_cons.1 hm with rfl | hm
      · exact ⟨m, hv, [], t, rfl, fun x hx hxv => ht ⟨x, hx, hxv⟩⟩
      · exact absurd ⟨m, hm, hv⟩ ht

theorem LastWith.mem {ms : List (Manifest C)} {v : V3} {m : Manifest C} (h : LastWith ms v m) : m ∈ ms := by
  obtain ⟨-, pre, post, rfl, -⟩ := h
  simp

/-- **C55** (latest version): without a requested version the content of a manifest with the highest version is used. -/
theorem C55_latest {ms : List (Manifest C)} (hne : ms ≠ []) {s : Standard C} (h : Standard.create ms = .ok s) :
    ∃ m ∈ ms, s.getMappings none = .ok m.content ∧ ∀ m' ∈ ms, m'.version ≤ m.version := by
  cases ms with
  | nil => exact absurd rfl hne
  | cons m t =>
    obtain ⟨h1, h2⟩ := @create_spec C m t
    by_cases hn : ∀ x ∈ t, x.name = m.name
    · obtain ⟨w, vs', a, b, c, d⟩ := h2 hn
      rw [a] at h
      cases h
      obtain ⟨y, hy⟩ := exists_lastWith b
      refine ⟨y, hy.mem, ?_, ?_⟩
      · simp [Standard.getMappings, (d w).1 y hy]
      · intro m' hm'
        rw [hy.1]
        exact c m' hm'
    · rw [h1 (by simpa using hn)] at h
      cases h

/-- **C55** (requested version): a requested version gives the content of the (last) manifest with exactly this version, and a
`KeyError` if there is none. -/
theorem C55_exact {ms : List (Manifest C)} {s : Standard C} (h : Standard.create ms = .ok s) (v : V3) :
    (∀ m, LastWith ms v m → s.getMappings (some v) = .ok m.content) ∧
    ((∀ m ∈ ms, m.version ≠ v) → s.getMappings (some v) = .error .keyError) := by
  cases ms with
  | nil =>
    cases h
    constructor
    · intro m hm; exact absurd hm.mem (by simp)
    · intro _; rfl
  | cons m t =>
    obtain ⟨h1, h2⟩ := @create_spec C m t
    by_cases hn : ∀ x ∈ t, x.name = m.name
    · obtain ⟨w, vs', a, b, c, d⟩ := h2 hn
      rw [a] at h
      cases h
      constructor
      · intro y hy
        simp [Standard.getMappings, (d v).1 y hy]
      · intro hno
        simp [Standard.getMappings, (d v).2 hno]
    · rw [h1 (by simpa using hn)] at h
      cases h

/-- **C55** (names): the constructor raises a `ValueError` exactly if the manifests have different names. -/
theorem C55_names {ms : List (Manifest C)} :
    ((∃ a ∈ ms, ∃ b ∈ ms, a.name ≠ b.name) → Standard.create ms = .error .valueError) ∧
    ((∀ a ∈ ms, ∀ b ∈ ms, a.name = b.name) → ∃ s, Standard.create ms = .ok s ∧ ∀ m ∈ ms, s.name = some m.name) := by
  cases ms with
  | nil => exact ⟨by simp, fun _ => ⟨_, rfl, by simp⟩⟩
  | cons m t =>
    obtain ⟨h1, h2⟩ := @create_spec C m t
    constructor
    · rintro ⟨a, ha, b, hb, hab⟩
      apply h1
      by_contra hc
      have key : ∀ x ∈ m :: t, x.name = m.name := by
        intro x hx
        rcases List.mem_cons.1 hx with rfl | hx
        · rfl
        · by_contra hne; exact hc ⟨x, hx, hne⟩
      exact hab ((key a ha).trans (key b hb).symm)
    · intro hall
      obtain ⟨w, vs', a, -⟩ := h2 (fun x hx => hall x (by simp [hx]) m (by simp))
      exact ⟨_, a, fun x hx => by simp [hall x hx m (by simp)]⟩

/-- **C55** (empty directory): without manifests every request raises a `KeyError`. -/
theorem C55_empty (v : Option V3) : ∃ s : Standard C, Standard.create [] = .ok s ∧ s.getMappings v = .error .keyError := by
  refine ⟨_, rfl, ?_⟩
  cases v <;> rfl

/-- versions 0.2.0, 0.10.0 and 0.9.3 of one standard -/
example : ∃ s, Standard.create [⟨"qs", toLex (0, toLex (2, 0)), 1⟩, ⟨"qs", toLex (0, toLex (10, 0)), 2⟩, ⟨"qs", toLex (0, toLex (9, 3)), 3⟩] = .ok s ∧
    s.getMappings none = .ok 2 ∧ s.getMappings (some (toLex (0, toLex (9, 3)))) = .ok 3 := by
  refine ⟨_, rfl, ?_, ?_⟩ <;> rfl

end Standards

/-! ## Texts of versions -/

/-- the value of decimal digits -/
def decimal (p : List Char) : ℕ := Nat.ofDigits 10 (p.reverse.map fun c => c.toNat - 48)

theorem decimal_append (p : List Char) (c : Char) : decimal (p ++ [c]) = 10 * decimal p + (c.toNat - 48) := by
  simp [decimal, Nat.ofDigits_cons]
  omega

theorem decimal_foldl (p : List Char) : p.foldl (fun n c => 10 * n + (c.toNat - 48)) 0 = decimal p := by
  induction p using List.reverseRec with
  | nil => rfl
  | append_singleton p c ih => rw [List.foldl_append, List.foldl_cons, List.foldl_nil, ih, decimal_append]

theorem number_iff {s : List Char} {n : ℕ} : number? s = some n ↔ s ≠ [] ∧ (∀ c ∈ s, c.isDigit = true) ∧ n = decimal s := by
  unfold number?
  split
  · rename_i h
    rw [decimal_foldl, Option.some.injEq]
    exact ⟨fun e => ⟨h.1, h.2, e.symm⟩, fun e => e.2.2.symm⟩
  · rename_i h
    simp only [reduceCtorEq, false_iff]
    rintro ⟨h1, h2, -⟩
    exact h ⟨h1, h2⟩

theorem allSome_iff {α : Type} {l : List (Option α)} {v : List α} : allSome l = some v ↔ l = v.map some := by
  induction l generalizing v with
  | nil => cases v <;> simp [allSome]
  | cons a t ih =>
    cases a with
    | none => cases v <;> simp [allSome]
    | some a =>
      cases v with
      | nil => simp [allSome]
      | cons b v => simp [allSome, ih, and_comm]

theorem split_intercalate (s : List Char) : ['.'].intercalate (splitPoints s) = s ∧ splitPoints s ≠ [] := by
  induction s with
  | nil => simp [splitPoints, List.intercalate]
  | cons c t ih =>
    rw [splitPoints]
    split
    · rename_i h
      subst h
      obtain ⟨h1, h2⟩ := ih
      cases hs : splitPoints t with
      | nil => exact absurd hs h2
      | cons a r =>
        rw [hs] at h1
        refine ⟨?_, by simp⟩
        rw [List.intercalate_cons_cons, h1]
        simp
    · obtain ⟨h1, h2⟩ := ih
      cases hs : splitPoints t with
      | nil => exact absurd hs h2
      | cons a r =>
        rw [hs] at h1
        refine ⟨?_, by simp⟩
        simp only
        cases r with
        | nil => simp [List.intercalate] at h1 ⊢; exact h1
        | cons b r => rw [List.intercalate_cons_cons] at h1 ⊢; rw [← h1]; simp

theorem splitPoints_part {p : List Char} (h : '.' ∉ p) : splitPoints p = [p] := by
  induction p with
  | nil => rfl
  | cons c t ih =>
    simp only [List.mem_cons, not_or] at h
    rw [splitPoints, if_neg (Ne.symm h.1), ih h.2]

theorem splitPoints_cons {p s : List Char} (h : '.' ∉ p) : splitPoints (p ++ '.' :: s) = p :: splitPoints s := by
  induction p with
  | nil => simp [splitPoints]
  | cons c t ih =>
    simp only [List.mem_cons, not_or] at h
    rw [List.cons_append, splitPoints, if_neg (Ne.symm h.1), ih h.2]

theorem split_parts {ps : List (List Char)} (hne : ps ≠ []) (h : ∀ p ∈ ps, '.' ∉ p) : splitPoints (['.'].intercalate ps) = ps := by
  induction ps with
  | nil => exact absurd rfl hne
  | cons p ps ih =>
    cases ps with
    | nil => rw [show ['.'].intercalate [p] = p by simp [List.intercalate]]; exact splitPoints_part (h p (by simp))
    | cons q ps =>
      rw [List.intercalate_cons_cons, List.append_assoc, List.singleton_append, splitPoints_cons (h p (by simp)),
        ih (by simp) (fun x hx => h x (List.mem_cons_of_mem _ hx))]

/-- **C39** (texts of versions): a text is a version iff it consists of numbers, which are not empty, separated by points; the version
is the list of their values. -/
theorem C39_version {s : List Char} {v : List ℕ} : version? s = some v ↔
    ∃ ps : List (List Char), ps ≠ [] ∧ (∀ p ∈ ps, p ≠ [] ∧ ∀ c ∈ p, c.isDigit = true) ∧ s = ['.'].intercalate ps ∧ v = ps.map decimal := by
  unfold version?
  rw [allSome_iff]
  constructor
  · intro h
    refine ⟨splitPoints s, (split_intercalate s).2, ?_, (split_intercalate s).1.symm, ?_⟩
    · intro p hp
      have : number? p ∈ (splitPoints s).map number? := List.mem_map_of_mem hp
      rw [h] at this
      obtain ⟨n, -, hn⟩ := List.mem_map.1 this
      have := number_iff.1 hn.symm
      exact ⟨this.1, this.2.1⟩
    · have : ∀ p ∈ splitPoints s, number? p = some (decimal p) := by
        intro p hp
        have : number? p ∈ (splitPoints s).map number? := List.mem_map_of_mem hp
        rw [h] at this
        obtain ⟨n, -, hn⟩ := List.mem_map.1 this
        have := number_iff.1 hn.symm
        rw [← hn, this.2.2]
      rw [List.map_congr_left this] at h
      have := congrArg (List.map fun o : Option ℕ => o.getD 0) h
      simp at this
      rw [← this]
      simp
  · rintro ⟨ps, hne, hp, rfl, rfl⟩
    rw [split_parts hne, List.map_map]
    · exact List.map_congr_left fun p h => number_iff.2 ⟨(hp p h).1, (hp p h).2, rfl⟩
    · intro p h hd
      exact absurd ((hp p h).2 _ hd) (by decide)

example : version? "0.10.2".toList = some [0, 10, 2] ∧ version? "0..1".toList = none ∧ version? "0.x".toList = none := by decide +kernel

/-- **C39** (tags): the version of a tag is the text after the last `-`; without `-` it is the whole text. -/
theorem C39_tag_version {t : List Char} :
    ('-' ∉ t → tagVersion? t = version? t ∧ (rpartition t).1 = []) ∧
    ∀ base v, '-' ∉ v → t = base ++ '-' :: v → tagVersion? t = version? v ∧ (rpartition t).1 = base := by
  constructor
  · intro h
    simp [tagVersion?, rpartition, rpart?_none h]
  · rintro base v h rfl
    simp [tagVersion?, rpartition, rpart?_append h]

end Weldx.Ver
