import Mathlib.Data.List.Nodup
import Mathlib.Data.List.Perm.Subperm
import Mathlib.Tactic.Common

/-!
# Insertion ordered dictionaries (Python `dict`) as association lists
-/

namespace Weldx.Dict
variable {K V : Type} [DecidableEq K]

/-- `list(d)` -/
def keys (d : List (K × V)) : List K := d.map Prod.fst

/-- `d.get(k)` -/
def get? : List (K × V) → K → Option V
  | [], _ => none
  | (k', v) :: t, k => if k' = k then some v else get? t k

/-- `d[k] = v`: an existing key keeps its position, a new one is appended. -/
def set : List (K × V) → K → V → List (K × V)
  | [], k, v => [(k, v)]
  | (k', v') :: t, k, v => if k' = k then (k', v) :: t else (k', v') :: set t k v

/-- `d.pop(k, None)` -/
def erase (d : List (K × V)) (k : K) : List (K × V) := d.filter (fun e => e.1 ≠ k)

/-- `d.update(e)` -/
def update (d e : List (K × V)) : List (K × V) := e.foldl (fun acc kv => set acc kv.1 kv.2) d

omit [DecidableEq K] in
@[simp] theorem keys_nil : keys ([] : List (K × V)) = [] := rfl
omit [DecidableEq K] in
@[simp] theorem keys_cons (e : K × V) (d) : keys (e :: d) = e.1 :: keys d := rfl
omit [DecidableEq K] in
@[simp] theorem keys_append (d e : List (K × V)) : keys (d ++ e) = keys d ++ keys e := by
  simp [keys]
omit [DecidableEq K] in
theorem mem_keys_of_mem {d : List (K × V)} {k v} (h : (k, v) ∈ d) : k ∈ keys d :=
  List.mem_map.2 ⟨_, h, rfl⟩
omit [DecidableEq K] in
theorem mem_keys_iff {d : List (K × V)} {k} : k ∈ keys d ↔ ∃ v, (k, v) ∈ d := by
  simp [keys]

theorem get?_eq_none {d : List (K × V)} {k} : get? d k = none ↔ k ∉ keys d := by
  induction d with
  | nil => simp [get?]
  | cons e t ih =>
    obtain ⟨k', v⟩ := e
    simp only [get?, keys_cons, List.mem_cons, not_or]
    split
    · rename_i h; simp [h]
    · rename_i h; rw [ih]; simp [Ne.symm (Ne.intro h)]

theorem get?_isSome {d : List (K × V)} {k} : (∃ v, get? d k = some v) ↔ k ∈ keys d := by
  rw [← not_iff_not, ← get?_eq_none]
  cases get? d k <;> simp

theorem mem_of_get? {d : List (K × V)} {k v} (h : get? d k = some v) : (k, v) ∈ d := by
  induction d with
  | nil => simp [get?] at h
  | cons e t ih =>
    obtain ⟨k', v'⟩ := e
    simp only [get?] at h
    split at h
    · rename_i hk; cases h; subst hk; simp
    · exact List.mem_cons_of_mem _ (ih h)

theorem get?_of_mem {d : List (K × V)} {k v} (hn : (keys d).Nodup) (h : (k, v) ∈ d) :
    get? d k = some v := by
  induction d with
  | nil => simp at h
  | cons e t ih =>
    obtain ⟨k', v'⟩ := e
    simp only [keys_cons, List.nodup_cons] at hn
    rcases List.mem_cons.1 h with h | h
    · cases h; simp [get?]
    · have : k' ≠ k := fun hk => hn.1 (hk ▸ mem_keys_of_mem h)
      simp [get?, this, ih hn.2 h]

theorem get?_iff_mem {d : List (K × V)} {k v} (hn : (keys d).Nodup) :
    get? d k = some v ↔ (k, v) ∈ d := ⟨mem_of_get?, get?_of_mem hn⟩

theorem mem_keys_set {d : List (K × V)} {k v x} : x ∈ keys (set d k v) ↔ x ∈ keys d ∨ x = k := by
  induction d with
  | nil => simp [set]
  | cons e t ih =>
    obtain ⟨k', v'⟩ := e
    simp only [set]
    split
    · rename_i h; subst h; simp; tauto
    · simp only [keys_cons, List.mem_cons, ih]; tauto

theorem keys_set_of_mem {d : List (K × V)} {k v} (h : k ∈ keys d) : keys (set d k v) = keys d := by
  induction d with
  | nil => simp at h
  | cons e t ih =>
    obtain ⟨k', v'⟩ := e
    simp only [set]
    split
    · simp
    · rename_i hk
      simp only [keys_cons, List.mem_cons] at h
      rw [keys_cons, keys_cons, ih (h.resolve_left fun e => hk e.symm)]

theorem set_of_not_mem {d : List (K × V)} {k v} (h : k ∉ keys d) : set d k v = d ++ [(k, v)] := by
  induction d with
  | nil => rfl
  | cons e t ih =>
    obtain ⟨k', v'⟩ := e
    simp only [keys_cons, List.mem_cons, not_or] at h
    simp only [set, List.cons_append]
    rw [if_neg (fun e => h.1 e.symm), ih h.2]

theorem nodup_keys_set {d : List (K × V)} {k v} (h : (keys d).Nodup) : (keys (set d k v)).Nodup := by
  by_cases hk : k ∈ keys d
  · rw [keys_set_of_mem hk]; exact h
  · rw [set_of_not_mem hk, keys_append]
    exact List.Nodup.append h (by simp) (List.disjoint_left.2 fun x hx h => by
      simp at h; exact hk (h ▸ hx))

theorem get?_set {d : List (K × V)} {k v x} :
    get? (set d k v) x = if x = k then some v else get? d x := by
  induction d with
  | nil => simp [set, get?, eq_comm]
  | cons e t ih =>
    obtain ⟨k', v'⟩ := e
    simp only [set]
    split
    · rename_i h; subst h; simp only [get?, eq_comm]; split <;> simp_all
    · rename_i h
      simp only [get?, ih]
      split
      · rename_i h2; subst h2; simp [h]
      · rfl

theorem mem_set {d : List (K × V)} {k v x w} (hn : (keys d).Nodup) :
    (x, w) ∈ set d k v ↔ (x = k ∧ w = v) ∨ (x ≠ k ∧ (x, w) ∈ d) := by
  rw [← get?_iff_mem (nodup_keys_set hn), get?_set, ← get?_iff_mem hn]
  split
  · rename_i h; simp [h, eq_comm]
  · rename_i h; simp [h]

theorem keys_erase {d : List (K × V)} {k} : keys (erase d k) = (keys d).filter (· ≠ k) := by
  simp only [keys, erase, List.filter_map]; rfl

theorem mem_erase {d : List (K × V)} {k x v} : (x, v) ∈ erase d k ↔ (x, v) ∈ d ∧ x ≠ k := by
  simp [erase]

theorem get?_erase {d : List (K × V)} {k x} :
    get? (erase d k) x = if x = k then none else get? d x := by
  induction d with
  | nil => simp [erase, get?]
  | cons e t ih =>
    obtain ⟨k', v'⟩ := e
    simp only [erase, List.filter_cons] at ih ⊢
    by_cases hk : k' = k
    · subst hk
      simp only [ne_eq, not_true_eq_false, decide_false, Bool.false_eq_true, if_false]
      rw [ih]; simp only [get?]
      split
      · rfl
      · rename_i h; rw [if_neg (fun e => h e.symm)]
    · simp only [ne_eq, hk, not_false_eq_true, decide_true, if_true, get?]
      rw [ih]
      by_cases hx : k' = x
      · subst hx; simp [hk]
      · simp [hx]

theorem mem_keys_update {d e : List (K × V)} {x} :
    x ∈ keys (update d e) ↔ x ∈ keys d ∨ x ∈ keys e := by
  induction e generalizing d with
  | nil => simp [update]
  | cons a t ih =>
    have : update d (a :: t) = update (set d a.1 a.2) t := rfl
    rw [this, ih, mem_keys_set, keys_cons, List.mem_cons]; tauto

theorem nodup_keys_update {d e : List (K × V)} (h : (keys d).Nodup) : (keys (update d e)).Nodup := by
  induction e generalizing d with
  | nil => exact h
  | cons a t ih => exact ih (d := set d a.1 a.2) (nodup_keys_set h)

theorem update_of_disjoint {d e : List (K × V)} (he : (keys e).Nodup)
    (h : ∀ k ∈ keys e, k ∉ keys d) : update d e = d ++ e := by
  induction e generalizing d with
  | nil => simp [update]
  | cons a t ih =>
    have : update d (a :: t) = update (set d a.1 a.2) t := rfl
    rw [this, set_of_not_mem (h a.1 (by simp))]
    simp only [keys_cons, List.nodup_cons] at he
    rw [ih he.2]
    · simp
    · intro k hk
      simp only [keys_append, keys_cons, keys_nil, List.mem_append, List.mem_singleton, not_or]
      exact ⟨h k (by simp [hk]), fun e => he.1 (e ▸ hk)⟩

theorem get?_update {d e : List (K × V)} (he : (keys e).Nodup) {x} :
    get? (update d e) x = (get? e x).or (get? d x) := by
  induction e generalizing d with
  | nil => simp [update, get?]
  | cons a t ih =>
    obtain ⟨k, v⟩ := a
    have : update d ((k, v) :: t) = update (set d k v) t := rfl
    simp only [keys_cons, List.nodup_cons] at he
    rw [this, ih he.2, get?_set]
    simp only [get?]
    by_cases hx : k = x
    · subst hx
      have := get?_eq_none.2 he.1
      simp [this]
    · simp [hx, Ne.symm hx]

theorem get?_append {d e : List (K × V)} {x} :
    get? (d ++ e) x = (get? d x).or (get? e x) := by
  induction d with
  | nil => simp [get?]
  | cons a t ih =>
    obtain ⟨k, v⟩ := a
    simp only [List.cons_append, get?]
    split
    · simp
    · exact ih

theorem get?_filter {d : List (K × V)} {p : K → Bool} {x} :
    get? (d.filter (fun e => p e.1)) x = if p x then get? d x else none := by
  induction d with
  | nil => simp [get?]
  | cons a t ih =>
    obtain ⟨k, v⟩ := a
    by_cases hx : k = x
    · subst hx
      by_cases hp : p k <;> simp [hp, get?, ih]
    · by_cases hp : p k <;> simp [hp, get?, ih, hx]

omit [DecidableEq K] in
theorem keys_filter {d : List (K × V)} {p : K → Bool} :
    keys (d.filter (fun e => p e.1)) = (keys d).filter p := by
  simp only [keys, List.filter_map]; rfl

end Weldx.Dict
