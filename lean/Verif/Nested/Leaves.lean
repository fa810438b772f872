import Mathlib.Data.Real.Basic
import Mathlib.Data.Finset.Basic
import Mathlib.Tactic.NormNum

/-!
# Comparison of the leaves of nested data (C117)

Source: `/repo/weldx/util/util.py` 171-174 (`_array_equal`), 185-213 (`_EqCompareNested.compare_funcs`, `_type_equalities`, `_compare`).

`Verif/Nested/Model.lean` takes leaves as equal if type and value are equal. Here numbers, texts, sets and arrays are compared as the code does.
Simplifications: floats are real numbers and nan; sets contain texts; an array is its shape and the list of its entries, with one type for all
of them. Quantities, pandas and xarray objects and `Time` are left out.
-/

namespace Weldx.Leaves

/-! ### model -/

/-- an entry of an array or a number -/
inductive Num
  | int (z : ℤ)
  | real (x : ℝ)
  | nan

/-- `==` of numbers, used in `util.py` 174 and 213: integers are converted, nan is not equal to anything -/
def Num.eq : Num → Num → Prop
  | .int a, .int b => a = b
  | .int a, .real b => (a : ℝ) = b
  | .real a, .int b => a = (b : ℝ)
  | .real a, .real b => a = b
  | _, _ => False

/-- an array of numpy, or one of a file that is not loaded yet (`NDArrayType`) -/
structure Array' where
  fromFile : Bool
  shape : List ℕ
  entries : List Num

/-- a leaf -/
inductive Leaf
  | int (z : ℤ)
  /-- `none` is nan -/
  | float (x : Option ℝ)
  | text (s : String)
  | set (s : Finset String)
  | array (a : Array')

/-- Python types -/
inductive Ty | int | float | text | set | ndarray | ndArrayType
  deriving DecidableEq

/-- `type(x)` -/
def Leaf.type : Leaf → Ty
  | .int _ => .int
  | .float _ => .float
  | .text _ => .text
  | .set _ => .set
  | .array a => if a.fromFile then .ndArrayType else .ndarray

/-- `_type_equalities`, `util.py` 196-198 -/
def sameTypes : List (List Ty) := [[.ndarray, .ndArrayType]]

/-- `np.all(a == b)` of two lists of entries with the same shape, `util.py` 174 -/
def allEq : List Num → List Num → Prop
  | [], [] => True
  | x :: xs, y :: ys => x.eq y ∧ allEq xs ys
  | _, _ => False

/-- `_array_equal`, `util.py` 171-174 -/
def arrayEqual (a b : Array') : Prop := a.shape = b.shape ∧ allEq a.entries b.entries

/-- `_compare`, `util.py` 200-213 -/
def compare (x y : Leaf) : Prop :=
  ((∃ e ∈ sameTypes, x.type ∈ e ∧ y.type ∈ e) ∨ x.type = y.type) ∧ match x, y with
    | .array a, .array b => arrayEqual a b
    | .set a, .set b => a = b
    | .int a, .int b => a = b
    | .float a, .float b => a ≠ none ∧ a = b
    | .int a, .float b => some (a : ℝ) = b
    | .float a, .int b => a = some (b : ℝ)
    | .text a, .text b => a = b
    | _, _ => False

/-! ### specification -/

/-- the value of a number; nan has none -/
def Num.value : Num → Option ℝ
  | .int z => some z
  | .real x => some x
  | .nan => none

/-- there is no nan in the leaf -/
def Clean : Leaf → Prop
  | .float x => x ≠ none
  | .array a => ∀ e ∈ a.entries, e.value ≠ none
  | _ => True

/-! ### lemmas -/

theorem Num.eq_iff {a b : Num} : a.eq b ↔ a.value ≠ none ∧ a.value = b.value := by
  cases a <;> cases b <;> simp [Num.eq, Num.value]

theorem allEq_iff : ∀ {l k : List Num}, allEq l k ↔ (∀ e ∈ l, e.value ≠ none) ∧ l.map Num.value = k.map Num.value
  | [], [] => by simp [allEq]
  | [], _ :: _ => by simp [allEq]
  | _ :: _, [] => by simp [allEq]
  | x :: xs, y :: ys => by
    simp only [allEq, Num.eq_iff, allEq_iff (l := xs), List.mem_cons, forall_eq_or_imp, List.map_cons, List.cons.injEq]
    tauto

theorem compare_mixed (z : ℤ) (x : Option ℝ) : ¬ compare (.int z) (.float x) ∧ ¬ compare (.float x) (.int z) := by
  constructor <;> rintro ⟨h, -⟩ <;> simp [sameTypes, Leaf.type] at h

/-! ### theorems -/

/-- **C117, arrays** are equal exactly if they have the same shape and the same numbers. The type of the entries does not matter, nor does it
matter whether an array has been loaded. Arrays with nan are not equal to anything. -/
theorem C117_arrays (a b : Array') : compare (.array a) (.array b) ↔
    a.shape = b.shape ∧ (∀ e ∈ a.entries, e.value ≠ none) ∧ a.entries.map Num.value = b.entries.map Num.value := by
  have ht : (∃ e ∈ sameTypes, (Leaf.array a).type ∈ e ∧ (Leaf.array b).type ∈ e) ∨ (Leaf.array a).type = (Leaf.array b).type := by
    left
    refine ⟨_, List.mem_singleton.2 rfl, ?_⟩
    simp only [Leaf.type]
    constructor <;> split <;> simp
  unfold compare
  simp only [ht, true_and, arrayEqual, allEq_iff]

/-- **C117.** Leaves of different types are different, except for arrays. -/
theorem C117_types {x y : Leaf} (h : compare x y) : x.type = y.type ∨ ∃ a b, x = .array a ∧ y = .array b := by
  cases x <;> cases y <;> first | exact .inl rfl | exact .inr ⟨_, _, rfl, rfl⟩ | exact ((compare_mixed _ _).1 h).elim |
    exact ((compare_mixed _ _).2 h).elim | exact h.2.elim

/-- **C117.** Other leaves are compared by value. -/
theorem C117_values (z w : ℤ) (x y : Option ℝ) (s t : String) (u v : Finset String) : (compare (.int z) (.int w) ↔ z = w) ∧
    (compare (.float x) (.float y) ↔ x ≠ none ∧ x = y) ∧ (compare (.text s) (.text t) ↔ s = t) ∧ (compare (.set u) (.set v) ↔ u = v) := by
  refine ⟨?_, ?_, ?_, ?_⟩
  · simp [compare, Leaf.type]
  · simp [compare, Leaf.type]
  · simp [compare, Leaf.type]
  · simp [compare, Leaf.type]

/-- **C117.** The comparison is symmetric and transitive. A leaf is equal to itself exactly if it contains no nan. -/
theorem C117_equivalence_partial (x y z : Leaf) : (compare x y → compare y x) ∧ (compare x y → compare y z → compare x z) ∧
    (compare x x ↔ Clean x) := by
  have clean : ∀ {l k : List Num}, (∀ e ∈ l, e.value ≠ none) → l.map Num.value = k.map Num.value → ∀ e ∈ k, e.value ≠ none := by
    intro l k h h' e he
    have : e.value ∈ l.map Num.value := by rw [h']; exact List.mem_map_of_mem he
    obtain ⟨d, hd, hde⟩ := List.mem_map.1 this
    rw [← hde]
    exact h d hd
  refine ⟨fun h => ?_, fun h k => ?_, ?_⟩
  · cases x <;> cases y <;> first | exact ((compare_mixed _ _).1 h).elim | exact ((compare_mixed _ _).2 h).elim | exact h.2.elim | skip
    · exact (C117_values _ _ none none "" "" ∅ ∅).1.2 ((C117_values _ _ none none "" "" ∅ ∅).1.1 h).symm
    · obtain ⟨h1, rfl⟩ := (C117_values 0 0 _ _ "" "" ∅ ∅).2.1.1 h
      exact h
    · exact (C117_values 0 0 none none _ _ ∅ ∅).2.2.1.2 ((C117_values 0 0 none none _ _ ∅ ∅).2.2.1.1 h).symm
    · exact (C117_values 0 0 none none "" "" _ _).2.2.2.2 ((C117_values 0 0 none none "" "" _ _).2.2.2.1 h).symm
    · rw [C117_arrays] at h ⊢
      exact ⟨h.1.symm, clean h.2.1 h.2.2, h.2.2.symm⟩
  · cases x <;> cases y <;> first | exact ((compare_mixed _ _).1 h).elim | exact ((compare_mixed _ _).2 h).elim | exact h.2.elim | skip
    all_goals cases z <;> first | exact ((compare_mixed _ _).1 k).elim | exact ((compare_mixed _ _).2 k).elim | exact k.2.elim | skip
    · rw [(C117_values _ _ none none "" "" ∅ ∅).1] at h k ⊢
      exact h.trans k
    · rw [(C117_values 0 0 _ _ "" "" ∅ ∅).2.1] at h k ⊢
      exact ⟨h.1, h.2.trans k.2⟩
    · rw [(C117_values 0 0 none none _ _ ∅ ∅).2.2.1] at h k ⊢
      exact h.trans k
    · rw [(C117_values 0 0 none none "" "" _ _).2.2.2] at h k ⊢
      exact h.trans k
    · rw [C117_arrays] at h k ⊢
      exact ⟨h.1.trans k.1, h.2.1, h.2.2.trans k.2.2⟩
  · cases x with
    | int z => simp [Clean, (C117_values z z none none "" "" ∅ ∅).1]
    | float v => simp [Clean, (C117_values 0 0 v v "" "" ∅ ∅).2.1]
    | text s => simp [Clean, (C117_values 0 0 none none s s ∅ ∅).2.2.1]
    | set s => simp [Clean, (C117_values 0 0 none none "" "" s s).2.2.2]
    | array a => simp [Clean, C117_arrays]

/-- **C117 is false.** An array with nan differs from itself. The numbers `1` and `1.0` are different as leaves and equal in arrays. -/
theorem C117_counterexample : (∀ b n, ¬ compare (.array ⟨b, [n], .nan :: List.replicate (n - 1) (.int 0)⟩)
      (.array ⟨b, [n], .nan :: List.replicate (n - 1) (.int 0)⟩)) ∧
    ∀ z : ℤ, ¬ compare (.int z) (.float (some z)) ∧ compare (.array ⟨false, [1], [.int z]⟩) (.array ⟨false, [1], [.real z]⟩) := by
  refine ⟨fun b n h => ?_, fun z => ⟨(compare_mixed _ _).1, (C117_arrays _ _).2 ⟨rfl, by simp [Num.value], rfl⟩⟩⟩
  rw [C117_arrays] at h
  exact h.2.1 .nan (by simp) rfl

/-- an array in a file and its loaded copy are equal -/
example : compare (.array ⟨true, [2], [.real (1 / 2), .int 3]⟩) (.array ⟨false, [2], [.real (1 / 2), .real 3]⟩) :=
  (C117_arrays _ _).2 ⟨rfl, by simp [Num.value], by simp [Num.value]⟩

end Weldx.Leaves
