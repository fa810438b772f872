import Verif.Base.Dict
import Mathlib.Algebra.BigOperators.Group.List.Basic
import Mathlib.Algebra.BigOperators.Ring.List
import Mathlib.Data.List.GetD
import Mathlib.Data.List.TakeWhile
import Mathlib.Data.Real.Basic
import Mathlib.Tactic.Linarith
import Mathlib.Tactic.Ring
import Mathlib.Tactic.FieldSimp
import Mathlib.Tactic.NormNum

/-!
# Evaluation of generic series with discrete values (C64)

Source: `/repo/weldx/core/generic_series.py` 465-511 (`evaluate`, `_evaluate_preprocessor`), 535-543 (`_evaluate_array`);
`/repo/weldx/util/xarray.py` 278-395 (`xr_interp_like`).

Simplifications: values and coordinates are real numbers in fixed units; the coordinates of a dimension are strictly increasing;
no dimension is empty. An array is a function of the indices of its dimensions. `xr_interp_like` adds the first and the last coordinate
to the requested ones, interpolates, and fills what is outside (362-390): this is interpolation with constant values outside. Several
dimensions are interpolated one after the other, as xarray does. The methods "quadratic" and "cubic" are not modelled; "slinear"
and "zero" are "linear" and "step" inside the range.
-/

namespace Weldx.Ds

/-- interpolation methods -/
inductive Method | linear | step | nearest
  deriving DecidableEq

/-- an array with named dimensions and their coordinates; the value depends on the indices of its dimensions -/
structure Arr where
  dims : List (String × List ℝ)
  val : (String → ℕ) → ℝ

/-- `GenericSeries` with discrete values -/
structure Series where
  arr : Arr
  method : Method

inductive Err | keyError
  deriving DecidableEq

/-- number of coordinates up to `x` -/
noncomputable def below (cs : List ℝ) (x : ℝ) : ℕ := (cs.takeWhile (· ≤ x)).length

/-- weights and indices of the samples that give the value at `x` -/
noncomputable def weights (m : Method) (cs : List ℝ) (x : ℝ) : List (ℝ × ℕ) :=
  let n := below cs x
  if n = 0 then [(1, 0)]
  else if n = cs.length then [(1, n - 1)]
  else
    let a := cs.getD (n - 1) 0
    let b := cs.getD n 0
    match m with
    | .step => [(1, n - 1)]
    | .nearest => if x - a ≤ b - x then [(1, n - 1)] else [(1, n)]
    | .linear => [(1 - (x - a) / (b - a), n - 1), ((x - a) / (b - a), n)]

/-- `xr_interp_like` along one dimension -/
noncomputable def interp1 (m : Method) (a : Arr) (d : String) (xs : List ℝ) : Arr :=
  match Dict.get? a.dims d with
  | none => a
  | some cs => ⟨Dict.set a.dims d xs, fun ix =>
      ((weights m cs (xs.getD (ix d) 0)).map fun w => w.1 * a.val (Function.update ix d w.2)).sum⟩

/-- `xr_interp_like` along several dimensions -/
noncomputable def interp (m : Method) (a : Arr) (kw : List (String × List ℝ)) : Arr :=
  kw.foldl (fun a e => interp1 m a e.1 e.2) a

/-- `evaluate`, 465-497 and 535-543: every key must be a dimension; the result is a new series with the default method (541) -/
noncomputable def evaluate (s : Series) (kw : List (String × List ℝ)) : Except Err Series :=
  if kw.all (fun e => e.1 ∈ Dict.keys s.arr.dims) then .ok ⟨interp s.method s.arr kw, .linear⟩ else .error .keyError

/-! ### Specification -/

/-- arrays as the constructor of xarray makes them -/
structure Arr.WF (a : Arr) : Prop where
  nodup : (Dict.keys a.dims).Nodup
  asc : ∀ e ∈ a.dims, e.2.Pairwise (· < ·)
  ne : ∀ e ∈ a.dims, e.2 ≠ []
  dep : ∀ ix iy : String → ℕ, (∀ d ∈ Dict.keys a.dims, ix d = iy d) → a.val ix = a.val iy

/-- indices of an element -/
def Inside (a : Arr) (ix : String → ℕ) : Prop := ∀ d cs, Dict.get? a.dims d = some cs → ix d < cs.length

/-! ### Lemmas -/

theorem weights_congr {m : Method} {cs : List ℝ} {x : ℝ} : ∀ w ∈ weights m cs x, cs ≠ [] → w.2 < cs.length := by
  intro w hw hne
  have hl : 0 < cs.length := List.length_pos_iff.2 hne
  have hb : below cs x ≤ cs.length := (List.takeWhile_prefix _).length_le
  unfold weights at hw
  simp only at hw
  split at hw
  · simp only [List.mem_singleton] at hw
    rw [hw]; exact hl
  · split at hw
    · simp only [List.mem_singleton] at hw
      rw [hw]; simp only; omega
    · cases m with
      | step =>
        simp only [List.mem_singleton] at hw
        rw [hw]; simp only; omega
      | nearest =>
        simp only at hw
        split at hw <;> simp only [List.mem_singleton] at hw <;> rw [hw] <;> simp only <;> omega
      | linear =>
        simp only [List.mem_cons, List.not_mem_nil, or_false] at hw
        rcases hw with rfl | rfl <;> simp only <;> omega

theorem sum_comm' {α β : Type} (l : List α) (k : List β) (f : α → β → ℝ) :
    (l.map fun a => (k.map fun b => f a b).sum).sum = (k.map fun b => (l.map fun a => f a b).sum).sum := by
  induction l with
  | nil => simp
  | cons a t ih =>
    simp only [List.map_cons, List.sum_cons, ih]
    rw [← List.sum_map_add]

theorem below_cons (c : ℝ) (cs : List ℝ) (x : ℝ) : below (c :: cs) x = if c ≤ x then below cs x + 1 else 0 := by
  unfold below
  by_cases h : c ≤ x <;> simp [List.takeWhile_cons, h]

theorem below_le {cs : List ℝ} {x : ℝ} {i : ℕ} (h : i < below cs x) : cs.getD i 0 ≤ x := by
  induction cs generalizing i with
  | nil => simp [below] at h
  | cons c t ih =>
    rw [below_cons] at h
    split at h
    · rename_i hc
      cases i with
      | zero => simpa using hc
      | succ i => simpa using ih (by omega)
    · omega

theorem below_gt {cs : List ℝ} {x : ℝ} (h : below cs x < cs.length) : x < cs.getD (below cs x) 0 := by
  induction cs with
  | nil => simp [below] at h
  | cons c t ih =>
    rw [below_cons] at h ⊢
    by_cases hc : c ≤ x
    · simp only [hc, if_true, List.length_cons] at h ⊢
      simpa using ih (by omega)
    · simp only [hc, if_false]
      simpa using hc

/-- the weights of a method add up to one, and are not negative -/
theorem weights_sum (m : Method) (cs : List ℝ) (x : ℝ) :
    ((weights m cs x).map (·.1)).sum = 1 ∧ ∀ w ∈ weights m cs x, 0 ≤ w.1 := by
  have hb : below cs x ≤ cs.length := (List.takeWhile_prefix _).length_le
  unfold weights
  simp only
  split
  · simp
  · rename_i h0
    split
    · simp
    · rename_i hn
      cases m with
      | step => simp
      | nearest => simp only; split <;> simp
      | linear =>
        have hlt : below cs x < cs.length := by omega
        have h1 := below_le (cs := cs) (x := x) (i := below cs x - 1) (by omega)
        have h2 := below_gt (cs := cs) (x := x) hlt
        have h3 : 0 < cs.getD (below cs x) 0 - cs.getD (below cs x - 1) 0 := by linarith
        refine ⟨by simp, ?_⟩
        intro w hw
        simp only [List.mem_cons, List.not_mem_nil, or_false] at hw
        rcases hw with rfl | rfl
        · simp only [sub_nonneg]
          rw [div_le_one h3]
          linarith
        · simp only
          exact div_nonneg (by linarith) h3.le

end Weldx.Ds
