import Mathlib.Data.List.Basic
import Mathlib.Tactic.FinCases
import Mathlib.Data.Fintype.Basic

/-!
# Inherited docstrings (C118)

Source: `/repo/weldx/util/util.py` 137-168 (`inherit_docstrings`).

Functions and properties are objects with an identity, as an inherited function is the same object in both classes. Simplifications: the
members are given as a list of names, as `getmembers` returns them; all attributes are functions or properties, whose `__doc__` can be set;
warnings are left out.
-/

namespace Weldx.Docs

/-! ### model -/

/-- Classes with their attributes. `mro c` is `c.__mro__`, which starts with the class itself; `own c n` is the entry `n` of `c.__dict__`. -/
structure Hierarchy (C F : Type) where
  mro : C → List C
  own : C → String → Option F

variable {C F : Type} [DecidableEq F]

/-- `getattr(c, n)`, or `none` if `hasattr(c, n)` is false, `util.py` 160-161 -/
def Hierarchy.lookup (H : Hierarchy C F) (c : C) (n : String) : Option F := (H.mro c).findSome? fun d => H.own d n

/-- the docstrings of all functions -/
abbrev Texts (F : Type) := F → Option String

/-- the truth value of a docstring -/
def truthy : Option String → Bool
  | none => false
  | some s => s ≠ ""

/-- `func.__doc__ = text` -/
def assign (t : Texts F) (f : F) (text : Option String) : Texts F := fun g => if g = f then text else t g

/-- the loop over the parents, `util.py` 159-167 -/
def fromParents (H : Hierarchy C F) (n : String) (f : F) : List C → Texts F → Texts F
  | [], t => t
  | p :: ps, t => match H.lookup p n with
    | none => fromParents H n f ps t
    | some g => fromParents H n f ps (assign t f (t g))

/-- the body of the outer loop, `util.py` 154-167, for a member of the class -/
def member (H : Hierarchy C F) (c : C) (t : Texts F) (n : String) : Texts F := match H.lookup c n with
  | none => t
  | some f => if truthy (t f) || n.startsWith "_" then t else fromParents H n f (H.mro c).tail t

/-- `inherit_docstrings`, `util.py` 137-168 -/
def inherit (H : Hierarchy C F) (c : C) (names : List String) (t : Texts F) : Texts F := names.foldl (member H c) t

/-! ### specification -/

/-- there is no docstring, or an empty one -/
def Missing (r : Option String) : Prop := r = none ∨ r = some ""

/-- the functions of a name in the parents of a class, in the order of the search, without the function itself -/
def parentFns (H : Hierarchy C F) (c : C) (n : String) (f : F) : List F := ((H.mro c).tail.filterMap fun p => H.lookup p n).filter (· ≠ f)

/-- the documented result: the docstring of the first parent that has one -/
def Nearest (H : Hierarchy C F) (c : C) (n : String) (f : F) (t : Texts F) (r : Option String) : Prop :=
  (∃ a g b, parentFns H c n f = a ++ g :: b ∧ (∀ x ∈ a, Missing (t x)) ∧ ¬ Missing (t g) ∧ r = t g) ∨
    ((∀ x ∈ parentFns H c n f, Missing (t x)) ∧ Missing r)

/-- functions are not used under several names -/
def Separate (H : Hierarchy C F) : Prop := ∀ c d n m f, H.lookup c n = some f → H.lookup d m = some f → n = m

/-! ### lemmas -/

theorem truthy_false (r : Option String) : truthy r = false ↔ Missing r := by cases r <;> simp [truthy, Missing]
theorem truthy_true (r : Option String) : truthy r = true ↔ ¬ Missing r := by rw [← truthy_false, Bool.not_eq_false]

theorem assign_self (t : Texts F) (f : F) (x : Option String) : assign t f x f = x := if_pos rfl
theorem assign_other (t : Texts F) {f g : F} (x : Option String) (h : g ≠ f) : assign t f x g = t g := if_neg h

theorem fromParents_other (H : Hierarchy C F) (n : String) {f g : F} (h : g ≠ f) : ∀ (ps : List C) (t : Texts F), fromParents H n f ps t g = t g
  | [], _ => rfl
  | p :: ps, t => by
    unfold fromParents
    cases H.lookup p n with
    | none => exact fromParents_other H n h ps t
    | some k =>
      show fromParents H n f ps _ g = _
      rw [fromParents_other H n h ps, assign_other _ _ h]

theorem fromParents_self (H : Hierarchy C F) (n : String) (f : F) : ∀ (ps : List C) (t : Texts F), fromParents H n f ps t f =
    match ((ps.filterMap fun p => H.lookup p n).filter (· ≠ f)).getLast? with
    | none => t f
    | some g => t g
  | [], _ => rfl
  | p :: ps, t => by
    unfold fromParents
    cases hp : H.lookup p n with
    | none =>
      show fromParents H n f ps t f = _
      rw [fromParents_self H n f ps t, List.filterMap_cons, hp]
    | some g =>
      show fromParents H n f ps _ f = _
      rw [fromParents_self H n f ps, List.filterMap_cons, hp]
      simp only
      by_cases hg : g = f
      · subst hg
        have he : assign t g (t g) = t := by funext x; unfold assign; split <;> simp_all
        rw [he, List.filter_cons_of_neg (by simp)]
      · rw [List.filter_cons_of_pos (by simpa using hg)]
        cases hl : ((ps.filterMap fun p => H.lookup p n).filter (· ≠ f)).getLast? with
        | none =>
          rw [List.getLast?_eq_none_iff] at hl
          rw [hl]
          simp [assign_self]
        | some k =>
          have hk : k ≠ f := by simpa using (List.mem_filter.1 (List.mem_of_getLast? hl)).2
          rw [List.getLast?_cons, hl]
          simp only [Option.getD_some]
          exact assign_other _ _ hk

/-! ### theorems -/

/-- **C118, one member.** A docstring is only changed if it is missing and the name is public. It becomes the one of the last parent in the
order of the search that has a different function of this name. No other function is changed. -/
theorem C118_member (H : Hierarchy C F) (c : C) (t : Texts F) {n : String} {f : F} (hf : H.lookup c n = some f) :
    (¬ Missing (t f) ∨ n.startsWith "_" = true → member H c t n = t) ∧
    (Missing (t f) → n.startsWith "_" = false → member H c t n f = match (parentFns H c n f).getLast? with
      | none => t f
      | some g => t g) ∧
    ∀ g, g ≠ f → member H c t n g = t g := by
  unfold member
  rw [hf]
  refine ⟨fun h => if_pos (by rw [← truthy_true] at h; simpa using h), fun h1 h2 => ?_, fun g hg => ?_⟩
  · rw [← truthy_false] at h1
    simp only [h1, h2, Bool.or_self, Bool.false_eq_true, if_false]
    exact fromParents_self H n f _ t
  · simp only
    split
    · rfl
    · exact fromParents_other H n hg _ t

theorem member_name (H : Hierarchy C F) (c d : C) (hs : Separate H) (t : Texts F) {n m : String} (hnm : n ≠ m) {g : F} (hg : H.lookup d m = some g) :
    member H c t n g = t g := by
  cases hf : H.lookup c n with
  | none => unfold member; rw [hf]
  | some f => exact (C118_member H c t hf).2.2 g fun h => hnm (hs c d n m f hf (h ▸ hg))

theorem inherit_not_mem (H : Hierarchy C F) (c d : C) (hs : Separate H) {m : String} {g : F} (hg : H.lookup d m = some g) :
    ∀ (names : List String) (t : Texts F), m ∉ names → inherit H c names t g = t g
  | [], _, _ => rfl
  | n :: names, t, h => by
    rw [List.mem_cons, not_or] at h
    show inherit H c names (member H c t n) g = _
    rw [inherit_not_mem H c d hs hg names _ h.2, member_name H c d hs t (Ne.symm h.1) hg]

/-- **C118, the whole class**, if functions are not used under several names: the docstring of each public member without one becomes the one
of the last parent; all other docstrings stay. -/
theorem C118_class (H : Hierarchy C F) (c : C) (hs : Separate H) {names : List String} (hn : names.Nodup) (t : Texts F) {n : String} {f : F}
    (hf : H.lookup c n = some f) :
    (n ∈ names → Missing (t f) → n.startsWith "_" = false → inherit H c names t f = match (parentFns H c n f).getLast? with
      | none => t f
      | some g => t g) ∧
    (n ∉ names ∨ ¬ Missing (t f) ∨ n.startsWith "_" = true → inherit H c names t f = t f) := by
  have key : ∀ (names : List String) (t : Texts F), names.Nodup → n ∈ names → inherit H c names t f = member H c t n f := by
    intro names
    induction names with
    | nil => intro t _ h; cases h
    | cons m names ih =>
      intro t hn h
      obtain ⟨hm, hn⟩ := List.nodup_cons.1 hn
      show inherit H c names (member H c t m) f = _
      by_cases hmn : n = m
      · subst hmn
        exact inherit_not_mem H c c hs hf names _ hm
      · have hmem : n ∈ names := (List.mem_cons.1 h).resolve_left hmn
        rw [ih _ hn hmem]
        obtain ⟨a1, a2, -⟩ := C118_member H c t hf
        obtain ⟨b1, b2, -⟩ := C118_member H c (member H c t m) hf
        have same : ∀ {d : C} {g : F}, H.lookup d n = some g → member H c t m g = t g :=
          fun hg => member_name H c _ hs t (Ne.symm hmn) hg
        by_cases hu : n.startsWith "_" = true
        · rw [b1 (.inr hu), a1 (.inr hu), same hf]
        by_cases ht : ¬ Missing (t f)
        · rw [b1 (.inl (by rw [same hf]; exact ht)), a1 (.inl ht), same hf]
        rw [Bool.not_eq_true] at hu
        rw [not_not] at ht
        rw [b2 (by rw [same hf]; exact ht) hu, a2 ht hu]
        cases hl : (parentFns H c n f).getLast? with
        | none => exact same hf
        | some g =>
          have := (List.mem_filter.1 (List.mem_of_getLast? hl)).1
          obtain ⟨p, _, hp⟩ := List.mem_filterMap.1 this
          exact same hp
  obtain ⟨a1, a2, -⟩ := C118_member H c t hf
  refine ⟨fun h h1 h2 => by rw [key names t hn h, a2 h1 h2], fun h => ?_⟩
  by_cases hm : n ∈ names
  · rw [key names t hn hm, a1 (h.resolve_left (not_not.2 hm))]
  · exact inherit_not_mem H c c hs hf names t hm

/-- **C118**, if only one function of this name is found in the parents: the documented result. -/
theorem C118_single_partial (H : Hierarchy C F) (c : C) (t : Texts F) {n : String} {f g : F} (hf : H.lookup c n = some f)
    (ht : Missing (t f)) (hn : n.startsWith "_" = false) (hg : ∀ x ∈ parentFns H c n f, x = g) :
    Nearest H c n f t (member H c t n f) := by
  rw [(C118_member H c t hf).2.1 ht hn]
  cases hl : parentFns H c n f with
  | nil => exact .inr ⟨by rw [hl]; simp, ht⟩
  | cons x l =>
    have hx : x = g := hg x (by rw [hl]; simp)
    subst hx
    cases hk : (x :: l).getLast? with
    | none => simp at hk
    | some k =>
      have : k = x := hg k (by rw [hl]; exact List.mem_of_getLast? hk)
      subst this
      by_cases hd : ¬ Missing (t k)
      · exact .inl ⟨[], k, l, hl, by simp, hd, rfl⟩
      · refine .inr ⟨fun y hy => ?_, not_not.1 hd⟩
        rw [hg y hy]
        exact not_not.1 hd

/-! ### three classes -/

/-- A chain of classes: `2` is derived from `1`, which is derived from `0`. Each of them has its own function `f`. -/
def chain : Hierarchy (Fin 3) (Fin 3) where
  mro c := match c with
    | 0 => [0]
    | 1 => [1, 0]
    | 2 => [2, 1, 0]
  own c n := if n = "f" then some c else none

/-- the docstrings of the functions -/
def texts (a b : Option String) : Texts (Fin 3)
  | 0 => a
  | 1 => b
  | 2 => none

theorem chain_lookup (c : Fin 3) : chain.lookup c "f" = some c := by fin_cases c <;> rfl
theorem chain_parents : parentFns chain 2 "f" 2 = [1, 0] := by rfl

theorem chain_result (a b : Option String) : inherit chain 2 ["f"] (texts a b) 2 = a := by
  have hf : ("f".startsWith "_") = false := by decide +kernel
  show member chain 2 (texts a b) "f" 2 = a
  rw [(C118_member chain 2 (texts a b) (chain_lookup 2)).2.1 (.inl rfl) hf, chain_parents]
  rfl

/-- **C118 is false.** The search does not stop at the first docstring: the one of the most distant class is used, not the one of the nearest
class. The docstring is lost if the most distant class has none. -/
theorem C118_counterexample {a b : Option String} (hb : ¬ Missing b) (hab : a ≠ b) : inherit chain 2 ["f"] (texts a b) 2 = a ∧
    ¬ Nearest chain 2 "f" 2 (texts a b) (inherit chain 2 ["f"] (texts a b) 2) := by
  refine ⟨chain_result a b, ?_⟩
  rw [chain_result]
  rintro (⟨l, g, k, h, h1, h2, h3⟩ | ⟨h, -⟩)
  · rw [chain_parents] at h
    cases l with
    | nil =>
      simp only [List.nil_append, List.cons.injEq] at h
      rw [← h.1] at h3
      exact hab h3
    | cons x l =>
      simp only [List.cons_append, List.cons.injEq] at h
      have := h1 x (by simp)
      rw [← h.1] at this
      exact hb this
  · have := h 1 (by rw [chain_parents]; simp)
    exact hb this

/-- the hypotheses hold -/
example : inherit chain 2 ["f"] (texts (some "base") (some "derived")) 2 = some "base" ∧
    inherit chain 2 ["f"] (texts none (some "derived")) 2 = none :=
  ⟨(C118_counterexample (by simp [Missing]) (by simp)).1, (C118_counterexample (b := some "derived") (by simp [Missing]) (by simp)).1⟩

/-- The same chain of classes, but class `2` has no own function. -/
def inherited : Hierarchy (Fin 3) (Fin 3) where
  mro := chain.mro
  own c n := if n = "f" ∧ c ≠ 2 then some c else none

/-- **C118, other classes.** An inherited function is changed in the class that defines it, although this class is not decorated. -/
theorem C118_shared (a : Option String) : inherited.own 2 "f" = none ∧ inherited.lookup 1 "f" = some 1 ∧
    inherit inherited 2 ["f"] (texts a none) 1 = a := by
  have hf : ("f".startsWith "_") = false := by decide +kernel
  refine ⟨rfl, rfl, ?_⟩
  show member inherited 2 (texts a none) "f" 1 = a
  rw [(C118_member inherited 2 (texts a none) (f := 1) rfl).2.1 (.inl rfl) hf]
  rfl

/-- the hypotheses of `C118_class` and `C118_single_partial` hold: functions of this chain are not used under several names, and class `1` has
one parent -/
example (a : Option String) : Separate chain ∧ inherit chain 1 ["f"] (texts a none) 1 = a ∧
    Nearest chain 1 "f" 1 (texts a none) (member chain 1 (texts a none) "f" 1) := by
  have hf : ("f".startsWith "_") = false := by decide +kernel
  have hs : Separate chain := by
    have h : ∀ c n f, chain.lookup c n = some f → n = "f" := by
      intro c n f h
      by_contra hn
      have : chain.lookup c n = none := by
        unfold Hierarchy.lookup chain
        simp [hn]
      rw [this] at h
      cases h
    intro c d n m f h1 h2
    rw [h _ _ _ h1, h _ _ _ h2]
  refine ⟨hs, ?_, C118_single_partial (g := 0) chain 1 _ (chain_lookup 1) (.inl rfl) hf ?_⟩
  · rw [(C118_class chain 1 hs (by simp) (texts a none) (chain_lookup 1)).1 (by simp) (.inl rfl) hf]
    rfl
  · intro x hx
    have : parentFns chain 1 "f" 1 = [0] := rfl
    rw [this] at hx
    simpa using hx

end Weldx.Docs
