import Verif.Schema.Series

/-!
# The shapes of the schemas (C91)
-/

set_option linter.unusedSimpArgs false

namespace Weldx.Schema
open Val

theorem chars_str (s : List Char) : (Item.str s).chars = s := rfl
theorem chars3 : (Item.int 3).chars = ['3'] := by simp [Item.chars, natChars]
theorem chars4 : (Item.int 4).chars = ['4'] := by simp [Item.chars, natChars]
@[simp] theorem hasDots_3 : hasDots ['3'] = false := by decide
@[simp] theorem hasDots_4 : hasDots ['4'] = false := by decide
@[simp] theorem hasDots_any : hasDots ['(', '~', ')'] = false := by decide
@[simp] theorem hasDots_opt : hasDots ['(', 't', ')'] = false := by decide

/-- outcome of a comparison -/
def outcome (b : Prop) [Decidable b] (d : List (Item × Int)) : Except VErr (List (Item × Int)) := if b then .ok d else .error .validationError

theorem validate_rev {s : List Int} {l : List Item} (hp : prepare s l = .ok (s.reverse, l.reverse))
    (he : validateExpected 0 l.reverse = .ok ()) : validateShape s l = match compareLists s.reverse l.reverse with
      | .error x => .error x
      | .ok none => .error .validationError
      | .ok (some d) => .ok d := by
  simp only [validateShape, hp, he, bind, Except.bind]
  cases compareLists s.reverse l.reverse with
  | error x => rfl
  | ok o => cases o <;> rfl

theorem compare3 (a : Nat) : Val.compare a ['3'] = .ok (decide (a = 3)) := by
  have : ¬ ((a : Int) < 0) := by omega
  simp only [Val.compare, this, if_false, List.mem_cons, List.not_mem_nil, or_false]
  rw [if_neg (by decide), if_pos (by decide)]
  have h3 : (toInt ['3'] : Int) = 3 := by decide
  rw [h3]
  congr 1
  simp only [decide_eq_decide]
  omega

theorem compare4 (a : Nat) : Val.compare a ['4'] = .ok (decide (a = 4)) := by
  have : ¬ ((a : Int) < 0) := by omega
  simp only [Val.compare, this, if_false, List.mem_cons, List.not_mem_nil, or_false]
  rw [if_neg (by decide), if_pos (by decide)]
  have h3 : (toInt ['4'] : Int) = 4 := by decide
  rw [h3]
  congr 1
  simp only [decide_eq_decide]
  omega

theorem compareAny (a : Nat) : Val.compare a ['~'] = .ok true := by
  have : ¬ ((a : Int) < 0) := by omega
  simp [Val.compare, this, split, limit, bind, Except.bind]

theorem shape_last3 (s : List Nat) :
    validateShape (s.map Int.ofNat) [.str ['.', '.', '.'], .int 3] = outcome (s.getLast? = some 3) [] := by
  rw [validate_rev (by simp [prepare, Item.strip, chars_str])
    (by simp [validateExpected, chars_str, chars3, isRangeFormatValid, isAlnum])]
  rcases List.eq_nil_or_concat s with rfl | ⟨t, a, rfl⟩
  · simp [compareLists, compareLoop, checkDim, chars3, chars_str, isAlnum, isNumeric, outcome]
  · simp [compareLists, compareLoop, checkDim, chars3, chars_str, isAlnum, isNumeric, outcome, compare3]
    by_cases h : a = 3 <;> simp [h]

theorem shape_last4 (s : List Nat) :
    validateShape (s.map Int.ofNat) [.str ['.', '.', '.'], .int 4] = outcome (s.getLast? = some 4) [] := by
  rw [validate_rev (by simp [prepare, Item.strip, chars_str])
    (by simp [validateExpected, chars_str, chars4, isRangeFormatValid, isAlnum])]
  rcases List.eq_nil_or_concat s with rfl | ⟨t, a, rfl⟩
  · simp [compareLists, compareLoop, checkDim, chars4, chars_str, isAlnum, isNumeric, outcome]
  · simp [compareLists, compareLoop, checkDim, chars4, chars_str, isAlnum, isNumeric, outcome, compare4]
    by_cases h : a = 4 <;> simp [h]

theorem shape_last33 (s : List Nat) :
    validateShape (s.map Int.ofNat) [.str ['.', '.', '.'], .int 3, .int 3] = outcome ([3, 3] <:+ s) [] := by
  rw [validate_rev (by simp [prepare, Item.strip, chars_str])
    (by simp [validateExpected, chars_str, chars3, isRangeFormatValid, isAlnum])]
  rcases List.eq_nil_or_concat s with rfl | ⟨t, a, rfl⟩
  · simp [compareLists, compareLoop, checkDim, chars3, chars_str, isAlnum, isNumeric, outcome]
  · rcases List.eq_nil_or_concat t with rfl | ⟨u, b, rfl⟩
    · have : ¬ [3, 3] <:+ [a] := fun h => by have := h.length_le; simp at this
      simp [compareLists, compareLoop, checkDim, chars3, chars_str, isAlnum, isNumeric, outcome, compare3]
      by_cases h : a = 3 <;> simp [h] <;> simpa [h] using this
    · have : [3, 3] <:+ (u ++ [b]) ++ [a] ↔ b = 3 ∧ a = 3 := by
        constructor
        · rintro ⟨v, hv⟩
          have : v ++ [3, 3] = (v ++ [3]) ++ [3] := by simp
          rw [this] at hv
          have h1 := List.append_inj' hv rfl
          have h2 := List.append_inj' h1.1 rfl
          simp at h1 h2
          exact ⟨h2.2.symm, h1.2.symm⟩
        · rintro ⟨rfl, rfl⟩; exact ⟨u, by simp⟩
      simp [compareLists, compareLoop, checkDim, chars3, chars_str, isAlnum, isNumeric, outcome, compare3]
      simp only [List.append_assoc, List.cons_append, List.nil_append] at this
      simp only [this]
      by_cases h : a = 3 <;> by_cases h' : b = 3 <;> simp [h, h']

/-- one or two dimensions with `3` as last one -/
theorem shape_points (s : List Nat) :
    validateShape (s.map Int.ofNat) [.str ['(', '~', ')'], .int 3] = outcome (s.getLast? = some 3 ∧ s.length ≤ 2) [] := by
  rw [validate_rev (by simp [prepare, Item.strip, chars_str])
    (by simp [validateExpected, chars_str, chars3, isRangeFormatValid, isAlnum, inner, split])]
  rcases List.eq_nil_or_concat s with rfl | ⟨t, a, rfl⟩
  · simp [compareLists, compareLoop, checkDim, chars3, chars_str, isAlnum, isNumeric, outcome]
  · rcases List.eq_nil_or_concat t with rfl | ⟨u, b, rfl⟩
    · simp [compareLists, compareLoop, checkDim, chars3, chars_str, isAlnum, isNumeric, outcome, compare3]
      by_cases h : a = 3 <;> simp [h]
    · simp [compareLists, compareLoop, checkDim, chars3, chars_str, isAlnum, isNumeric, outcome, compare3, inner, compareAny]
      by_cases h : a = 3 <;> simp [h]
      by_cases h : u = [] <;> simp [h]
      rw [if_pos (by have := List.length_pos_iff.2 h; omega)]

/-- the value of the variable in `[(t), 3, 3]` -/
def rotVars (s : List Nat) : List (Item × Int) := if s.length = 3 then [(.str ['t'], (s.headD 0 : Int))] else []

theorem suffix33 {u : List Nat} {a b : Nat} : [3, 3] <:+ u ++ [b, a] ↔ b = 3 ∧ a = 3 := by
  constructor
  · rintro ⟨v, hv⟩
    have h1 := List.append_inj' hv rfl
    simp at h1
    exact ⟨h1.2.1.symm, h1.2.2.symm⟩
  · rintro ⟨rfl, rfl⟩; exact ⟨u, by simp⟩

/-- `[(t), 3, 3]` -/
theorem shape_rot (s : List Nat) : validateShape (s.map Int.ofNat) [.str ['(', 't', ')'], .int 3, .int 3] =
    outcome ([3, 3] <:+ s ∧ s.length ≤ 3) (rotVars s) := by
  rw [validate_rev (by simp [prepare, Item.strip, chars_str])
    (by simp [validateExpected, chars_str, chars3, isRangeFormatValid, isAlnum, inner, split])]
  rcases List.eq_nil_or_concat s with rfl | ⟨t, a, rfl⟩
  · simp [compareLists, compareLoop, checkDim, chars3, chars_str, isAlnum, isNumeric, outcome]
  · rcases List.eq_nil_or_concat t with rfl | ⟨u, b, rfl⟩
    · have : ¬ [3, 3] <:+ [a] := fun h => by have := h.length_le; simp at this
      simp [compareLists, compareLoop, checkDim, chars3, chars_str, isAlnum, isNumeric, outcome, compare3]
      by_cases h : a = 3 <;> simp [h] <;> simpa [h] using this
    · rcases List.eq_nil_or_concat u with rfl | ⟨v, c, rfl⟩
      · simp [compareLists, compareLoop, checkDim, chars3, chars_str, isAlnum, isNumeric, outcome, compare3, inner]
        have := suffix33 (u := []) (a := a) (b := b)
        simp only [List.nil_append] at this
        simp only [this]
        by_cases h : a = 3 <;> by_cases h' : b = 3 <;> simp [h, h', rotVars]
      · simp [compareLists, compareLoop, checkDim, chars3, chars_str, isAlnum, isNumeric, outcome, compare3, inner, Dict.get?, Dict.set]
        have := suffix33 (u := v ++ [c]) (a := a) (b := b)
        simp only [List.append_assoc, List.cons_append, List.nil_append] at this
        simp only [this]
        by_cases h : a = 3 <;> by_cases h' : b = 3 <;> simp [h, h', rotVars]
        by_cases h : v = []
        · simp [h, Dict.get?, Dict.set]
        · simp [h, Dict.get?, Dict.set]
          rw [if_pos (by have := List.length_pos_iff.2 h; omega)]

end Weldx.Schema
