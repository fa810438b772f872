import Mathlib.Tactic.Common
import Mathlib.Data.List.Basic

/-!
# Header of an ASDF file (C42)

Source: `/repo/weldx/asdf/util.py` 272-317 (`get_yaml_header`).

Simplifications: the file is the list of its bytes, read from the start (`file.seek(0)` or a newly opened file); the decoding of the
header as UTF-8 and the YAML parser are not modelled.
-/

namespace Weldx.File

/-- `handle.readline()`: the bytes up to and including the next line feed, and the remaining bytes -/
def readline : List UInt8 → List UInt8 × List UInt8
  | [] => ([], [])
  | b :: t => if b = 10 then ([10], t) else (b :: (readline t).1, (readline t).2)

theorem readline_eq (s : List UInt8) : (readline s).1 ++ (readline s).2 = s := by
  induction s with
  | nil => rfl
  | cons b t ih =>
    simp only [readline]
    split
    · rename_i h; simp [h]
    · simp [ih]

theorem readline_pos {s : List UInt8} (h : (readline s).1 ≠ []) : (readline s).2.length < s.length := by
  have := congrArg List.length (readline_eq s)
  rw [List.length_append] at this
  have := List.length_pos_iff.2 h
  omega

/-- the line `...` with line feed -/
def marker : List UInt8 := [46, 46, 46, 10]
/-- the line `...` with carriage return and line feed -/
def markerCr : List UInt8 := [46, 46, 46, 13, 10]

/-- util.py 290-298 `read_header`: lines are read until there is none or a marker line (`StopIteration` ends the iterator) -/
def readHeader (s : List UInt8) : List UInt8 :=
  if _h : (readline s).1 = [] ∨ (readline s).1 = marker ∨ (readline s).1 = markerCr then []
  else (readline s).1 ++ readHeader (readline s).2
termination_by s.length
decreasing_by exact readline_pos (fun h => _h (.inl h))

/-! ## Specification -/

/-- at position `n` a line starts, and it is a document end marker -/
def MarkerAt (s : List UInt8) (n : ℕ) : Prop :=
  (n = 0 ∨ s[n - 1]? = some 10) ∧ (marker <+: s.drop n ∨ markerCr <+: s.drop n)

/-! ## Lemmas -/

theorem readline_nil {s : List UInt8} : (readline s).1 = [] ↔ s = [] := by
  cases s with
  | nil => simp [readline]
  | cons b t =>
    simp only [readline]
    split <;> simp

theorem readline_marker {s : List UInt8} (h : marker <+: s) : (readline s).1 = marker := by
  obtain ⟨t, rfl⟩ := h
  simp [marker, readline]

theorem readline_markerCr {s : List UInt8} (h : markerCr <+: s) : (readline s).1 = markerCr := by
  obtain ⟨t, rfl⟩ := h
  simp [markerCr, readline]

/-- a line has a line feed at its end only; if there is none at the end, it is the last line -/
theorem readline_lf (s : List UInt8) :
    (∀ i, i + 1 < (readline s).1.length → (readline s).1[i]? ≠ some 10) ∧
    ((readline s).2 = [] ∨ (readline s).1[(readline s).1.length - 1]? = some 10) := by
  induction s with
  | nil => simp [readline]
  | cons b t ih =>
    simp only [readline]
    split
    · simp
    · rename_i hb
      constructor
      · intro i hi
        cases i with
        | zero => simpa using hb
        | succ i =>
          simp only [List.length_cons] at hi
          simpa using ih.1 i (by omega)
      · rcases ih.2 with h | h
        · exact .inl h
        · right
          have hpos : 0 < (readline t).1.length := by
            by_contra hc
            have : (readline t).1 = [] := List.length_eq_zero_iff.1 (by omega)
            rw [this] at h
            simp at h
          obtain ⟨n, hn⟩ : ∃ n, (readline t).1.length = n + 1 := ⟨_, (Nat.succ_pred_eq_of_pos hpos).symm⟩
          rw [hn] at h
          simp only [List.length_cons, hn, Nat.add_sub_cancel, List.getElem?_cons_succ]
          simpa using h

theorem markerAt_zero {s : List UInt8} :
    MarkerAt s 0 ↔ (readline s).1 = marker ∨ (readline s).1 = markerCr := by
  unfold MarkerAt
  simp only [true_or, true_and, List.drop_zero]
  constructor
  · rintro (h | h)
    · exact .inl (readline_marker h)
    · exact .inr (readline_markerCr h)
  · rintro (h | h)
    · exact .inl ⟨(readline s).2, by rw [← h]; exact readline_eq s⟩
    · exact .inr ⟨(readline s).2, by rw [← h]; exact readline_eq s⟩

theorem not_markerAt_inside {s : List UInt8} {n : ℕ} (h0 : 0 < n) (h : n < (readline s).1.length) : ¬ MarkerAt s n := by
  rintro ⟨h1, -⟩
  rcases h1 with h1 | h1
  · omega
  · have := (readline_lf s).1 (n - 1) (by omega)
    rw [← readline_eq s, List.getElem?_append_left (by omega)] at h1
    exact this h1

theorem markerAt_append {l r : List UInt8} {k : ℕ} (hl : l ≠ []) (hlf : r = [] ∨ l[l.length - 1]? = some 10) :
    MarkerAt (l ++ r) (l.length + k) ↔ MarkerAt r k := by
  have hpos := List.length_pos_iff.2 hl
  unfold MarkerAt
  rw [List.drop_append, List.drop_eq_nil_of_le (by omega), List.nil_append, Nat.add_sub_cancel_left]
  constructor
  · rintro ⟨h1, h2⟩
    refine ⟨?_, h2⟩
    cases k with
    | zero => exact .inl rfl
    | succ k =>
      right
      rcases h1 with h1 | h1
      · omega
      · rw [List.getElem?_append_right (by omega), show l.length + (k + 1) - 1 - l.length = k + 1 - 1 by omega] at h1
        exact h1
  · rintro ⟨h1, h2⟩
    refine ⟨.inr ?_, h2⟩
    cases k with
    | zero =>
      rcases hlf with h | h
      · rw [h] at h2
        simp [marker, markerCr] at h2
      · rw [Nat.add_zero, List.getElem?_append_left (by omega)]
        exact h
    | succ k =>
      rcases h1 with h1 | h1
      · omega
      · rw [List.getElem?_append_right (by omega), show l.length + (k + 1) - 1 - l.length = k + 1 - 1 by omega]
        exact h1

theorem markerAt_add {s : List UInt8} {k : ℕ} (hl : (readline s).1 ≠ []) :
    MarkerAt s ((readline s).1.length + k) ↔ MarkerAt (readline s).2 k := by
  have := markerAt_append (k := k) hl (readline_lf s).2
  rwa [readline_eq] at this

/-! ## C42 -/

/-- **C42**: if the file has a marker line, the header is the content in front of the first one; otherwise it is the whole file. -/
theorem C42_header (s : List UInt8) :
    (∀ n, MarkerAt s n → (∀ m < n, ¬ MarkerAt s m) → readHeader s = s.take n) ∧
    ((∀ n, ¬ MarkerAt s n) → readHeader s = s) := by
  induction hlen : s.length using Nat.strongRecOn generalizing s with
  | ind len ih =>
    subst hlen
    by_cases hnil : (readline s).1 = []
    · have hs := readline_nil.1 hnil
      subst hs
      rw [readHeader]
      simp [readline]
    · by_cases hm : (readline s).1 = marker ∨ (readline s).1 = markerCr
      · have h0 : MarkerAt s 0 := markerAt_zero.2 hm
        rw [readHeader, dif_pos (.inr hm)]
        constructor
        · intro n _ hlt
          cases n with
          | zero => simp
          | succ n => exact absurd h0 (hlt 0 (by omega))
        · intro h
          exact absurd h0 (h 0)
      · rw [readHeader, dif_neg (by rintro (h | h); exacts [hnil h, hm h])]
        obtain ⟨ih1, ih2⟩ := ih _ (readline_pos hnil) (readline s).2 rfl
        have hno0 : ¬ MarkerAt s 0 := fun h => hm (markerAt_zero.1 h)
        constructor
        · intro n hn hlt
          have hge : (readline s).1.length ≤ n := by
            by_contra hc
            rcases Nat.eq_zero_or_pos n with h | h
            · subst h; exact hno0 hn
            · exact not_markerAt_inside h (by omega) hn
          obtain ⟨k, rfl⟩ := Nat.exists_eq_add_of_le hge
          rw [ih1 k ((markerAt_add hnil).1 hn) (fun m hmk hM => hlt _ (by omega) ((markerAt_add hnil).2 hM))]
          have ht : ∀ l r : List UInt8, (l ++ r).take (l.length + k) = l ++ r.take k := by
            intro l r; simp [List.take_append, List.take_of_length_le]
          have := ht (readline s).1 (readline s).2
          rw [readline_eq] at this
          exact this.symm
        · intro h
          rw [ih2 (fun k hk => h _ ((markerAt_add hnil).2 hk))]
          exact readline_eq s

/-- **C42** (binary data): whatever follows the first marker line does not change the header. -/
theorem C42_binary {h m b b' : List UInt8} (hm : m = marker ∨ m = markerCr) (hh : h = [] ∨ h.getLast? = some 10)
    (hfirst : ∀ n < h.length, ¬ MarkerAt (h ++ m) n) :
    readHeader (h ++ m ++ b) = h ∧ readHeader (h ++ m ++ b') = h := by
  have key : ∀ b, readHeader (h ++ m ++ b) = h := by
    intro b
    have hat : MarkerAt (h ++ m ++ b) h.length := by
      refine ⟨?_, ?_⟩
      · rcases hh with rfl | hh
        · exact .inl rfl
        · right
          have hne : h ≠ [] := by rintro rfl; simp at hh
          have := List.length_pos_iff.2 hne
          rw [List.append_assoc, List.getElem?_append_left (by omega), ← hh, List.getLast?_eq_getElem?]
      · rw [List.append_assoc, List.drop_left]
        rcases hm with rfl | rfl
        · exact .inl (List.prefix_append _ _)
        · exact .inr (List.prefix_append _ _)
    have hno : ∀ n < h.length, ¬ MarkerAt (h ++ m ++ b) n := by
      intro n hn hM
      apply hfirst n hn
      obtain ⟨h1, h2⟩ := hM
      refine ⟨?_, ?_⟩
      · rcases h1 with h1 | h1
        · exact .inl h1
        · right
          rwa [List.getElem?_append_left (by simp; omega)] at h1
      · -- the marker ends inside `h ++ m`: a marker that starts inside `h` ends with its first line feed
        rw [List.drop_append_of_le_length (by simp; omega)] at h2
        have hlf : ∃ i, n + i < (h ++ m).length ∧ (h ++ m)[n + i]? = some 10 ∧ n + i + 1 = (h ++ m).length := by
          rcases hm with rfl | rfl
          · refine ⟨h.length + 3 - n, ?_, ?_, ?_⟩
            · simp [marker]; omega
            · rw [show n + (h.length + 3 - n) = h.length + 3 by omega, List.getElem?_append_right (by omega)]
              simp [marker]
            · simp [marker]; omega
          · refine ⟨h.length + 4 - n, ?_, ?_, ?_⟩
            · simp [markerCr]; omega
            · rw [show n + (h.length + 4 - n) = h.length + 4 by omega, List.getElem?_append_right (by omega)]
              simp [markerCr]
            · simp [markerCr]; omega
        obtain ⟨i, hi1, hi2, hi3⟩ := hlf
        have hlen : ∀ k : List UInt8, (∀ j, j + 1 < k.length → k[j]? ≠ some 10) → k <+: (h ++ m).drop n ++ b →
            k <+: (h ++ m).drop n := by
          intro k hk hp
          apply List.prefix_of_prefix_length_le hp (List.prefix_append _ _)
          by_contra hc
          have hdl : ((h ++ m).drop n).length = i + 1 := by rw [List.length_drop]; omega
          apply hk i (by omega)
          obtain ⟨u, hu⟩ := hp
          have h3 : (k ++ u)[i]? = some 10 := by
            rw [hu, List.getElem?_append_left (by omega), List.getElem?_drop]
            exact hi2
          rwa [List.getElem?_append_left (by omega)] at h3
        rcases h2 with h2 | h2
        · left
          apply hlen _ _ h2
          intro j hj
          simp only [marker, List.length_cons, List.length_nil] at hj
          rcases j with _ | _ | _ | j <;> first | omega | simp [marker]
        · right
          apply hlen _ _ h2
          intro j hj
          simp only [markerCr, List.length_cons, List.length_nil] at hj
          rcases j with _ | _ | _ | _ | j <;> first | omega | simp [markerCr]
    rw [(C42_header _).1 _ hat hno, List.append_assoc, List.take_left]
  exact ⟨key b, key b'⟩

/-! ### Examples -/

/-- `a\n...x\n...\n` followed by two bytes: the line `...x` is no marker -/
example : MarkerAt [97, 10, 46, 46, 46, 120, 10, 46, 46, 46, 10, 1, 2] 7 ∧
    ∀ m < 7, ¬ MarkerAt [97, 10, 46, 46, 46, 120, 10, 46, 46, 46, 10, 1, 2] m := by
  unfold MarkerAt marker markerCr
  decide

end Weldx.File
