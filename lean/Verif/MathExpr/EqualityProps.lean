import Verif.MathExpr.Equality
import Verif.TimeLcs.ExprRefProps

/-!
# C76: equal expressions, series and systems behave equally
-/

namespace Weldx.Me

open Nested

variable {K : Type} {A : Type}

/-! ## Dictionaries without nested structures -/

/-- the items of a dictionary for `compare_nested` -/
def flatEntries : List (String × A) → Entries A
  | [] => .nil
  | (k, v) :: t => .cons (.str k.toList) (.leaf (.atom v)) (flatEntries t)

theorem flat_get (b : List (String × A)) (k : String) :
    Dict.get? (flatEntries b).toList (.str k.toList) = (Dict.get? b k).map fun v => .leaf (.atom v) := by
  induction b with
  | nil => rfl
  | cons e t ih =>
    obtain ⟨x, v⟩ := e
    simp only [flatEntries, Entries.toList, Dict.get?, Key.str.injEq, String.toList_inj]
    split
    · rfl
    · exact ih

theorem flat_keys (b : List (String × A)) : Dict.keys (flatEntries b).toList = (Dict.keys b).map fun k => .str k.toList := by
  induction b with
  | nil => rfl
  | cons e t ih =>
    obtain ⟨x, v⟩ := e
    simp only [flatEntries, Entries.toList, Dict.keys_cons, List.map_cons, ih]

theorem flat_mem (b : List (String × A)) (k : String) : Key.str k.toList ∈ Dict.keys (flatEntries b).toList ↔ k ∈ Dict.keys b := by
  rw [flat_keys, List.mem_map]
  constructor
  · rintro ⟨x, hx, e⟩
    rw [Key.str.injEq, String.toList_inj] at e
    rwa [← e]
  · intro h
    exact ⟨k, h, rfl⟩

theorem flat_checkKeys (i j : ℕ) (a b : List (String × A)) :
    checkKeys (.cont j .dict (flatEntries b)) (.cont i .dict (flatEntries a)) = .ok () ∧
        (∀ k, k ≠ "" → (k ∈ Dict.keys a ↔ k ∈ Dict.keys b)) ∨
      checkKeys (.cont j .dict (flatEntries b)) (.cont i .dict (flatEntries a)) = .error .lookup ∧
        ¬ ∀ k, k ≠ "" → (k ∈ Dict.keys a ↔ k ∈ Dict.keys b) := by
  have ht : ∀ k : String, (Key.str k.toList).truthy = true ↔ k ≠ "" := by
    intro k
    simp [Key.truthy]
  have hany : ∀ x y : List (String × A), ((Dict.keys (flatEntries x).toList).any fun k =>
      decide (k ∉ Dict.keys (flatEntries y).toList) && k.truthy) = true ↔ ∃ k, k ≠ "" ∧ k ∈ Dict.keys x ∧ k ∉ Dict.keys y := by
    intro x y
    rw [List.any_eq_true]
    constructor
    · rintro ⟨k, hk, h⟩
      rw [flat_keys, List.mem_map] at hk
      obtain ⟨s, hs, rfl⟩ := hk
      rw [Bool.and_eq_true, decide_eq_true_eq, flat_mem, ht] at h
      exact ⟨s, h.2, hs, h.1⟩
    · rintro ⟨s, h1, h2, h3⟩
      refine ⟨.str s.toList, (flat_mem _ _).2 h2, ?_⟩
      rw [Bool.and_eq_true, decide_eq_true_eq, flat_mem, ht]
      exact ⟨h3, h1⟩
  by_cases h : ∀ k, k ≠ "" → (k ∈ Dict.keys a ↔ k ∈ Dict.keys b)
  · refine .inl ⟨?_, h⟩
    simp only [checkKeys]
    rw [if_neg]
    rw [Bool.or_eq_true, hany, hany]
    rintro (⟨k, h1, h2, h3⟩ | ⟨k, h1, h2, h3⟩)
    · exact h3 ((h k h1).2 h2)
    · exact h3 ((h k h1).1 h2)
  · refine .inr ⟨?_, h⟩
    simp only [checkKeys]
    rw [if_pos]
    rw [Bool.or_eq_true, hany, hany]
    push Not at h
    obtain ⟨k, h1, h2⟩ := h
    rcases h2 with h2 | h2
    · exact .inr ⟨k, h1, h2⟩
    · exact .inl ⟨k, h1, h2.2, h2.1⟩

theorem flat_visit [DecidableEq A] (i j : ℕ) (a b : List (String × A)) (e : String × A) :
    let P := (∃ v, Dict.get? b e.1 = some v ∧ e.2 = v) ∧ ∀ k, k ≠ "" → (k ∈ Dict.keys a ↔ k ∈ Dict.keys b)
    visit (.cont i .dict (flatEntries a)) (.cont j .dict (flatEntries b)) [] (.str e.1.toList) (.leaf (.atom e.2)) = .ok () ∧ P ∨
      visit (.cont i .dict (flatEntries a)) (.cont j .dict (flatEntries b)) [] (.str e.1.toList) (.leaf (.atom e.2)) =
        .error .lookup ∧ ¬ P := by
  intro P
  simp only [visit, getPath, bind, Except.bind, index, flat_get, entered, Bool.false_eq_true, if_false, seqLength]
  cases hg : Dict.get? b e.1 with
  | none =>
    refine .inr ⟨rfl, ?_⟩
    rintro ⟨⟨v, hv, _⟩, _⟩
    rw [hg] at hv
    cases hv
  | some v =>
    simp only [Option.map_some]
    rcases flat_checkKeys i j a b with ⟨h1, h2⟩ | ⟨h1, h2⟩
    · rw [h1]
      by_cases hv : e.2 = v
      · refine .inl ⟨?_, ⟨v, hg, hv⟩, h2⟩
        simp [Nested.compare, hv]
      · refine .inr ⟨?_, ?_⟩
        · simp [Nested.compare, hv]
        · rintro ⟨⟨w, hw, e'⟩, _⟩
          rw [hg] at hw
          cases hw
          exact hv e'
    · rw [h1]
      refine .inr ⟨rfl, ?_⟩
      rintro ⟨_, h⟩
      exact h2 h

theorem flat_walk [DecidableEq A] (i j : ℕ) (a b : List (String × A)) (r : List ℕ) (s : List (String × A)) :
    let P := ∀ e ∈ s, (∃ v, Dict.get? b e.1 = some v ∧ e.2 = v) ∧ ∀ k, k ≠ "" → (k ∈ Dict.keys a ↔ k ∈ Dict.keys b)
    walkEntries (.cont i .dict (flatEntries a)) (.cont j .dict (flatEntries b)) [] r (flatEntries s) = .ok r ∧ P ∨
      walkEntries (.cont i .dict (flatEntries a)) (.cont j .dict (flatEntries b)) [] r (flatEntries s) = .error .lookup ∧ ¬ P := by
  induction s with
  | nil => exact .inl ⟨by simp [flatEntries, walkEntries], by simp⟩
  | cons e t ih =>
    obtain ⟨k, v⟩ := e
    simp only [flatEntries, walkEntries, walkValue]
    rcases flat_visit i j a b (k, v) with ⟨h1, h2⟩ | ⟨h1, h2⟩
    · simp only [h1, bind, Except.bind]
      rcases ih with ⟨h3, h4⟩ | ⟨h3, h4⟩
      · refine .inl ⟨h3, ?_⟩
        intro x hx
        rcases List.mem_cons.1 hx with rfl | hx
        · exact h2
        · exact h4 x hx
      · refine .inr ⟨h3, ?_⟩
        intro h
        exact h4 fun x hx => h x (List.mem_cons_of_mem _ hx)
    · simp only [h1, bind, Except.bind]
      refine .inr ⟨trivial, ?_⟩
      intro h
      exact h2 (h (k, v) List.mem_cons_self)

/-- **C76.** `flatCompare` is what `compare_nested` does with dictionaries that contain no further structures. -/
theorem C76_flat [DecidableEq A] (i j : ℕ) (a b : List (String × A)) :
    compareNested (.cont i .dict (flatEntries a)) (.cont j .dict (flatEntries b)) = .ok true ∧ flatCompare (· = ·) a b ∨
      compareNested (.cont i .dict (flatEntries a)) (.cont j .dict (flatEntries b)) = .ok false ∧ ¬ flatCompare (· = ·) a b := by
  rcases flat_walk i j a b [i] a with ⟨h1, h2⟩ | ⟨h1, h2⟩
  · exact .inl ⟨by simp [compareNested, h1, Except.map], h2⟩
  · exact .inr ⟨by simp [compareNested, h1, Except.map], h2⟩

/-! ## Specification vocabulary -/

/-- the same entries up to `r`, in any order -/
def SameDict (r : A → A → Prop) (a b : List (String × A)) : Prop := ∀ k, Option.Rel r (Dict.get? a k) (Dict.get? b k)

/-- the same result: the same exception or related values -/
inductive Res {B : Type} (r : A → B → Prop) : Except Err A → Except Err B → Prop
  | ok {a b} (h : r a b) : Res r (.ok a) (.ok b)
  | error {e} : Res r (.error e) (.error e)

/-- no coordinate occurs twice -/
def Arr.Ok (a : Arr K) : Prop := (Dict.keys a.coords).Nodup

/-- identical arrays without repeated coordinates -/
def Twin (a b : Arr K) : Prop := a.identical b ∧ a.Ok ∧ b.Ok

/-- the same expression and parameters -/
structure SameME (e f : ME K) : Prop where
  expr : e.expr = f.expr
  params : SameDict Twin e.params f.params
  nodup : (Dict.keys e.params).Nodup
  nodup' : (Dict.keys f.params).Nodup

/-- the same series -/
inductive SameGS : GS K → GS K → Prop
  | expr {e f : ME K} {sd sd' : List (String × String)} (h : SameME e f) (hd : ∀ k, Dict.get? sd k = Dict.get? sd' k)
      (h1 : (Dict.keys sd).Nodup) (h2 : (Dict.keys sd').Nodup) (h3 : (sd.map Prod.snd).Nodup) (h4 : (sd'.map Prod.snd).Nodup) :
      SameGS (.expr e sd) (.expr f sd')
  | array {a b : Arr K} (h : Twin a b) : SameGS (.array a) (.array b)

/-! ## Arrays -/

theorem identical_refl (a : Arr K) : a.identical a := ⟨rfl, fun _ => rfl, fun _ _ => rfl⟩

theorem identical_symm {a b : Arr K} (h : a.identical b) : b.identical a :=
  ⟨h.1.symm, fun k => (h.2.1 k).symm, fun i hi => (h.2.2 i (by rw [h.1]; exact hi)).symm⟩

theorem identical_trans {a b c : Arr K} (h : a.identical b) (h' : b.identical c) : a.identical c :=
  ⟨h.1.trans h'.1, fun k => (h.2.1 k).trans (h'.2.1 k), fun i hi => (h.2.2 i hi).trans (h'.2.2 i (by rw [← h.1]; exact hi))⟩

theorem joinLabels_get {L : Type} [DecidableEq L] {a b r : List (String × L)} (h : joinLabels a b = some r) (k : String) :
    Dict.get? r k = (Dict.get? a k).or (Dict.get? b k) := by
  unfold joinLabels at h
  split at h
  · cases h
    rw [Dict.get?_append]
    cases ha : Dict.get? a k with
    | some v => rfl
    | none =>
      simp only [Option.none_or]
      have : Dict.get? (b.filter fun e => decide (Dict.get? a e.1 = none)) k = Dict.get? b k := by
        have := Dict.get?_filter (d := b) (p := fun x => decide (Dict.get? a x = none)) (x := k)
        rw [this]
        simp [ha]
      simpa using this
  · cases h

theorem joinLabels_nodup {L : Type} [DecidableEq L] {a b r : List (String × L)} (h : joinLabels a b = some r)
    (ha : (Dict.keys a).Nodup) (hb : (Dict.keys b).Nodup) : (Dict.keys r).Nodup := by
  unfold joinLabels at h
  split at h
  · cases h
    rw [Dict.keys_append, List.nodup_append]
    refine ⟨ha, ?_, ?_⟩
    · have := Dict.keys_filter (d := b) (p := fun x => decide (Dict.get? a x = none))
      rw [this]
      exact hb.filter _
    · rintro x hx y hy rfl
      obtain ⟨v, hv⟩ := Dict.mem_keys_iff.1 hy
      have := (List.mem_filter.1 hv).2
      simp only [decide_eq_true_eq] at this
      exact Dict.get?_eq_none.1 this hx
  · cases h

theorem joinLabels_twin {L : Type} [DecidableEq L] {a a' b b' : List (String × L)} (ha : ∀ k, Dict.get? a k = Dict.get? a' k)
    (hb : ∀ k, Dict.get? b k = Dict.get? b' k) (nb : (Dict.keys b).Nodup) (nb' : (Dict.keys b').Nodup) :
    joinLabels a b = none ∧ joinLabels a' b' = none ∨ ∃ r r', joinLabels a b = some r ∧ joinLabels a' b' = some r' := by
  have key : ∀ {x y x' y' : List (String × L)}, (∀ k, Dict.get? x k = Dict.get? x' k) → (∀ k, Dict.get? y k = Dict.get? y' k) →
      (Dict.keys y').Nodup → (∀ e ∈ y, Dict.get? x e.1 = none ∨ Dict.get? x e.1 = some e.2) →
      ∀ e ∈ y', Dict.get? x' e.1 = none ∨ Dict.get? x' e.1 = some e.2 := by
    intro x y x' y' hx hy ny h e he
    have h1 := Dict.get?_of_mem ny (show (e.1, e.2) ∈ y' from he)
    rw [← hy] at h1
    rw [← hx]
    exact h _ (Dict.mem_of_get? h1)
  by_cases h : ∀ e ∈ b, Dict.get? a e.1 = none ∨ Dict.get? a e.1 = some e.2
  · refine .inr ⟨a ++ b.filter (fun e => Dict.get? a e.1 = none), a' ++ b'.filter (fun e => Dict.get? a' e.1 = none), ?_, ?_⟩
    · unfold joinLabels; rw [if_pos h]
    · unfold joinLabels; rw [if_pos (key ha hb nb' h)]
  · refine .inl ⟨?_, ?_⟩
    · unfold joinLabels; rw [if_neg h]
    · unfold joinLabels
      rw [if_neg]
      intro h'
      exact h (key (fun k => (ha k).symm) (fun k => (hb k).symm) nb h')

theorem joinLabels_sub {L : Type} [DecidableEq L] {a b r : List (String × L)} (h : joinLabels a b = some r) :
    (∀ e ∈ a, e ∈ r) ∧ ∀ e ∈ b, e ∈ r := by
  unfold joinLabels at h
  split at h
  · rename_i hc
    cases h
    refine ⟨fun e he => List.mem_append_left _ he, fun e he => ?_⟩
    rcases hc e he with h1 | h1
    · exact List.mem_append_right _ (List.mem_filter.2 ⟨he, by simp [h1]⟩)
    · exact List.mem_append_left _ (Dict.mem_of_get? h1)
  · cases h

theorem bin_twin [DecidableEq K] (f : K → K → K) {a a' b b' : Arr K} (ha : Twin a a') (hb : Twin b b') :
    Res Twin (Arr.bin f a b) (Arr.bin f a' b') := by
  obtain ⟨⟨a1, a2, a3⟩, a4, a5⟩ := ha
  obtain ⟨⟨b1, b2, b3⟩, b4, b5⟩ := hb
  unfold Arr.bin
  rcases joinLabels_twin a2 b2 b4 b5 with ⟨h1, h2⟩ | ⟨c, c', h1, h2⟩
  · rw [h1, h2]; exact .error
  · rw [h1, h2, a1, b1]
    simp only
    cases h3 : joinLabels a'.dims b'.dims with
    | none => exact .error
    | some d =>
      refine .ok ⟨⟨rfl, ?_, ?_⟩, joinLabels_nodup h1 a4 b4, joinLabels_nodup h2 a5 b5⟩
      · intro k
        change Dict.get? c k = Dict.get? c' k
        rw [joinLabels_get h1, joinLabels_get h2, a2, b2]
      · intro i hi
        change f (a.val i) (b.val i) = f (a'.val i) (b'.val i)
        rw [a3 i (fun e he => hi e ((joinLabels_sub h3).1 e (a1 ▸ he))), b3 i (fun e he => hi e ((joinLabels_sub h3).2 e (b1 ▸ he)))]

theorem eval_twin [DecidableEq K] {env env' : List (String × Arr K)} (h : SameDict Twin env env') (e : Expr K) :
    Res Twin (e.eval env) (e.eval env') := by
  induction e with
  | num k => exact .ok ⟨identical_refl _, List.nodup_nil, List.nodup_nil⟩
  | sym s =>
    simp only [Expr.eval]
    have := h s
    revert this
    cases Dict.get? env s <;> cases Dict.get? env' s <;> intro this
    · exact .error
    · cases this
    · cases this
    · cases this with | some h => exact .ok h
  | un f a ih =>
    simp only [Expr.eval]
    revert ih
    generalize a.eval env = x
    generalize a.eval env' = y
    intro ih
    cases ih with
    | ok h => exact .ok ⟨⟨h.1.1, h.1.2.1, fun i hi => congrArg f (h.1.2.2 i hi)⟩, h.2⟩
    | error => exact .error
  | bin f a b iha ihb =>
    simp only [Expr.eval]
    revert iha ihb
    generalize a.eval env = x
    generalize a.eval env' = y
    generalize b.eval env = z
    generalize b.eval env' = w
    intro iha ihb
    cases iha with
    | error => exact .error
    | ok h1 =>
      cases ihb with
      | error => exact .error
      | ok h2 => exact bin_twin f h1 h2

theorem SameDict.mem {r : A → A → Prop} {a b : List (String × A)} (h : SameDict r a b) (k : String) :
    k ∈ Dict.keys a ↔ k ∈ Dict.keys b := by
  rw [← Dict.get?_isSome, ← Dict.get?_isSome]
  have := h k
  revert this
  cases Dict.get? a k <;> cases Dict.get? b k <;> intro this
  · simp
  · cases this
  · cases this
  · simp

theorem SameDict.append {r : A → A → Prop} {a b c d : List (String × A)} (h : SameDict r a b) (h' : SameDict r c d) :
    SameDict r (a ++ c) (b ++ d) := by
  intro k
  rw [Dict.get?_append, Dict.get?_append]
  have h1 := h k
  have h2 := h' k
  revert h1
  cases Dict.get? a k <;> cases Dict.get? b k <;> intro h1
  · simpa using h2
  · cases h1
  · cases h1
  · simpa using h1

theorem call_twin [DecidableEq K] {env env' : List (String × Arr K)} (h : SameDict Twin env env') (e : Expr K) :
    Res Twin (e.call env) (e.call env') := by
  unfold Expr.call
  simp only [h.mem]
  split
  · exact eval_twin h e
  · exact .error

theorem SameME.keys {e f : ME K} (h : SameME e f) (k : String) : k ∈ Dict.keys e.params ↔ k ∈ Dict.keys f.params := h.params.mem k

theorem SameME.length {e f : ME K} (h : SameME e f) : e.params.length = f.params.length := by
  have := ((List.perm_ext_iff_of_nodup h.nodup h.nodup').2 h.keys).length_eq
  simpa [Dict.keys] using this

/-- evaluation with the same arguments -/
theorem evaluate_twin [DecidableEq K] {e f : ME K} (h : SameME e f) {kw kw' : List (String × Arr K)} (hk : SameDict Twin kw kw') :
    Res Twin (e.evaluate kw) (f.evaluate kw') := by
  unfold ME.evaluate
  simp only [hk.mem, h.keys, h.expr]
  split
  · exact .error
  · exact call_twin (hk.append h.params) _

/-! ## Comparison of dictionaries -/

theorem flatCompare_sameDict {r : A → A → Prop} {a b : List (String × A)} (ha : (Dict.keys a).Nodup) (hne : "" ∉ Dict.keys b)
    (h : flatCompare r a b) : a = [] ∨ SameDict r a b := by
  cases a with
  | nil => exact .inl rfl
  | cons e t =>
    refine .inr ?_
    have hk := (h e List.mem_cons_self).2
    intro k
    cases hg : Dict.get? (e :: t) k with
    | some v =>
      obtain ⟨w, hw, hr⟩ := (h (k, v) (Dict.mem_of_get? hg)).1
      rw [hw]
      exact .some hr
    | none =>
      rw [Dict.get?_eq_none] at hg
      have : Dict.get? b k = none := by
        rw [Dict.get?_eq_none]
        intro hb
        by_cases he : k = ""
        · exact hne (he ▸ hb)
        · exact hg ((hk k he).2 hb)
      rw [this]
      exact .none

theorem sameDict_flatCompare {r : A → A → Prop} {a b : List (String × A)} (ha : (Dict.keys a).Nodup) (h : SameDict r a b) :
    flatCompare r a b := by
  intro e he
  refine ⟨?_, fun k _ => h.mem k⟩
  have h1 := Dict.get?_of_mem ha (show (e.1, e.2) ∈ a from he)
  have h2 := h e.1
  rw [h1] at h2
  revert h2
  cases Dict.get? b e.1 <;> intro h2
  · cases h2
  · cases h2 with | some h => exact ⟨_, rfl, h⟩

/-- an expression with proper parameters, as the class makes them -/
structure ME.Ok (e : ME K) : Prop where
  nodup : (Dict.keys e.params).Nodup
  named : "" ∉ Dict.keys e.params
  arrs : ∀ p ∈ e.params, p.2.Ok

theorem twin_dict {e f : ME K} (he : e.Ok) (hf : f.Ok) (h : SameDict Arr.identical e.params f.params) :
    SameDict Twin e.params f.params := by
  intro k
  have := h k
  revert this
  cases h1 : Dict.get? e.params k <;> cases h2 : Dict.get? f.params k <;> intro this
  · exact .none
  · cases this
  · cases this
  · cases this with
    | some h => exact .some ⟨h, he.arrs _ (Dict.mem_of_get? h1), hf.arrs _ (Dict.mem_of_get? h2)⟩

theorem identical_dict {e f : ME K} (h : SameDict Twin e.params f.params) : SameDict Arr.identical e.params f.params := by
  intro k
  have := h k
  revert this
  cases Dict.get? e.params k <;> cases Dict.get? f.params k <;> intro this
  · exact .none
  · cases this
  · cases this
  · cases this with | some h => exact .some h.1

/-- **C76.** What the comparison of two expressions decides: the expressions are the same and the parameters are the same, or the
first one has no parameters. -/
theorem C76_expression_iff {e f : ME K} (he : e.Ok) (hf : f.Ok) :
    ME.eq e f ↔ e.expr = f.expr ∧ (e.params = [] ∨ SameME e f) := by
  constructor
  · rintro ⟨h1, h2⟩
    refine ⟨h1, ?_⟩
    rcases flatCompare_sameDict he.nodup hf.named h2 with h | h
    · exact .inl h
    · exact .inr ⟨h1, twin_dict he hf h, he.nodup, hf.nodup⟩
  · rintro ⟨h1, h2⟩
    refine ⟨h1, ?_⟩
    rcases h2 with h | h
    · rw [h]; intro e he; cases he
    · exact sameDict_flatCompare he.nodup (identical_dict h.params)

theorem twin_refl_dict {kw : List (String × Arr K)} (h : ∀ p ∈ kw, p.2.Ok) : SameDict Twin kw kw := by
  intro k
  cases hg : Dict.get? kw k with
  | none => exact .none
  | some v => exact .some ⟨identical_refl v, h _ (Dict.mem_of_get? hg), h _ (Dict.mem_of_get? hg)⟩

/-- **C76 (partial).** Expressions that compare equal have the same value for all arguments, or raise the same exception. Missing: the
case that the first one has no parameters and the second one has some, see `C76_expression_oneway`. -/
theorem C76_expression_evaluate_partial [DecidableEq K] {e f : ME K} (he : e.Ok) (hf : f.Ok) (h : ME.eq e f)
    (h0 : e.params = [] → f.params = []) {kw : List (String × Arr K)} (hk : ∀ p ∈ kw, p.2.Ok) :
    Res Twin (e.evaluate kw) (f.evaluate kw) := by
  obtain ⟨h1, h2⟩ := (C76_expression_iff he hf).1 h
  have hs : SameME e f := by
    rcases h2 with h2 | h2
    · refine ⟨h1, ?_, he.nodup, hf.nodup⟩
      rw [h2, h0 h2]
      intro k
      exact .none
    · exact h2
  exact evaluate_twin hs (twin_refl_dict hk)

/-- **C76, refutation.** An expression without parameters equals the same expression with any parameters. -/
theorem C76_expression_oneway (e : Expr K) (ps : List (String × Arr K)) : ME.eq ⟨e, []⟩ ⟨e, ps⟩ :=
  ⟨rfl, fun _ h => by cases h⟩

/-- **C76.** In the other direction they are different. -/
theorem C76_expression_otherway (e : Expr K) {ps : List (String × Arr K)} (h : ps ≠ []) : ¬ ME.eq ⟨e, ps⟩ ⟨e, []⟩ := by
  rintro ⟨_, h'⟩
  cases ps with
  | nil => exact h rfl
  | cons p t =>
    obtain ⟨v, hv, _⟩ := (h' p List.mem_cons_self).1
    cases hv

/-! ## Generic series -/

/-- an expression based series as the constructor leaves it, see `Series`, with named symbols and proper parameters -/
structure GoodSeries (me : ME K) (sd : List (String × String)) : Prop where
  series : Series me sd
  ok : me.Ok
  named : "" ∉ me.expr.free

theorem sd_named {me : ME K} {sd : List (String × String)} (h : GoodSeries me sd) : "" ∉ Dict.keys sd := by
  intro h1
  have := (h.series.vars "").1 h1
  unfold ME.variableNames at this
  exact h.named (List.mem_filter.1 this).1

/-- **C76.** Two series with expressions are equal exactly if they have the same expression, parameters and dimensions. -/
theorem C76_series_iff {e f : ME K} {sd sd' : List (String × String)} (he : GoodSeries e sd) (hf : GoodSeries f sd') :
    GS.eq (.expr e sd) (.expr f sd') ↔ SameGS (.expr e sd) (.expr f sd') := by
  constructor
  · rintro ⟨h1, h2⟩
    obtain ⟨h3, h4⟩ := (C76_expression_iff he.ok hf.ok).1 h2
    have hsd := flatCompare_sameDict he.series.syms_nodup (sd_named hf) h1
    have hvar : ∀ s, s ∈ e.expr.free → s ∈ Dict.keys sd ∨ s ∈ Dict.keys e.params := by
      intro s hs
      by_cases hp : s ∈ Dict.keys e.params
      · exact .inr hp
      · exact .inl ((he.series.vars s).2 (by unfold ME.variableNames; simp [hs, hp]))
    have hvar' : ∀ s, s ∈ Dict.keys sd' → s ∈ f.expr.free ∧ s ∉ Dict.keys f.params := by
      intro s hs
      have := (hf.series.vars s).1 hs
      unfold ME.variableNames at this
      simpa using this
    have hme : SameME e f := by
      rcases h4 with h4 | h4
      · refine ⟨h3, ?_, he.ok.nodup, hf.ok.nodup⟩
        have hf0 : f.params = [] := by
          by_contra hne
          obtain ⟨p, hp⟩ := List.exists_mem_of_ne_nil _ hne
          have hpk : p.1 ∈ Dict.keys f.params := Dict.mem_keys_of_mem (v := p.2) hp
          have hfree := hf.series.params_free _ hpk
          rw [← h3] at hfree
          have hin : p.1 ∈ Dict.keys sd := by
            rcases hvar _ hfree with h | h
            · exact h
            · rw [h4] at h; cases h
          rcases hsd with h | h
          · rw [h] at hin; cases hin
          · exact (hvar' _ ((h.mem _).1 hin)).2 hpk
        rw [h4, hf0]
        intro k
        exact .none
      · exact h4
    have hd : ∀ k, Dict.get? sd k = Dict.get? sd' k := by
      rcases hsd with h | h
      · have : sd' = [] := by
          by_contra hne
          obtain ⟨p, hp⟩ := List.exists_mem_of_ne_nil _ hne
          obtain ⟨a1, a2⟩ := hvar' p.1 (Dict.mem_keys_of_mem (v := p.2) hp)
          rw [← h3] at a1
          rcases hvar _ a1 with a | a
          · rw [h] at a; cases a
          · exact a2 ((hme.keys _).1 a)
        intro k
        rw [h, this]
      · intro k
        have := h k
        revert this
        cases Dict.get? sd k <;> cases Dict.get? sd' k <;> intro this
        · rfl
        · cases this
        · cases this
        · cases this with | some h => rw [h]
    exact .expr hme hd he.series.syms_nodup hf.series.syms_nodup he.series.dims_nodup hf.series.dims_nodup
  · intro h
    cases h with
    | expr h hd h1 h2 h3 h4 =>
      refine ⟨sameDict_flatCompare h1 ?_, (C76_expression_iff he.ok hf.ok).2 ⟨h.expr, .inr h⟩⟩
      intro k
      rw [hd]
      cases Dict.get? sd' k with
      | none => exact .none
      | some v => exact .some rfl

theorem rel_symm {r : A → A → Prop} (hr : ∀ {x y}, r x y → r y x) {a b : List (String × A)} (h : SameDict r a b) : SameDict r b a := by
  intro k
  have := h k
  revert this
  cases Dict.get? a k <;> cases Dict.get? b k <;> intro this
  · exact .none
  · cases this
  · cases this
  · cases this with | some h => exact .some (hr h)

theorem rel_trans {r : A → A → Prop} (hr : ∀ {x y z}, r x y → r y z → r x z) {a b c : List (String × A)} (h : SameDict r a b)
    (h' : SameDict r b c) : SameDict r a c := by
  intro k
  have h1 := h k
  have h2 := h' k
  revert h1 h2
  cases Dict.get? a k <;> cases Dict.get? b k <;> cases Dict.get? c k <;> intro h1 h2
  · exact .none
  · cases h2
  · cases h1
  · cases h1
  · cases h1
  · cases h1
  · cases h2
  · cases h1 with
    | some h1 =>
      cases h2 with
      | some h2 => exact .some (hr h1 h2)

/-- **C76.** Series of different kinds are never equal, and series with discrete values are equal exactly if dimensions, coordinates and
all values are. -/
theorem C76_series_kinds (e : ME K) (sd : List (String × String)) (a b : Arr K) :
    ¬ GS.eq (.expr e sd) (.array a) ∧ ¬ GS.eq (.array a) (.expr e sd) ∧
    (GS.eq (.array a) (.array b) ↔ a.dims = b.dims ∧ (∀ k, Dict.get? a.coords k = Dict.get? b.coords k) ∧
      ∀ i : String → ℕ, (∀ d n, (d, n) ∈ a.dims → i d < n) → a.val i = b.val i) := by
  refine ⟨fun h => h, fun h => h, ⟨fun ⟨h1, h2, h3⟩ => ⟨h1, h2, fun i hi => h3 i fun e he => hi e.1 e.2 he⟩,
    fun ⟨h1, h2, h3⟩ => ⟨h1, h2, fun i hi => h3 i fun d n h => hi (d, n) h⟩⟩⟩

/-- the same series: an equivalence -/
theorem SameGS.symm {g h : GS K} (x : SameGS g h) : SameGS h g := by
  cases x with
  | expr a b c d e f =>
    exact .expr ⟨a.expr.symm, rel_symm (fun h => ⟨identical_symm h.1, h.2.2, h.2.1⟩) a.params, a.nodup', a.nodup⟩
      (fun k => (b k).symm) d c f e
  | array h => exact .array ⟨identical_symm h.1, h.2.2, h.2.1⟩

theorem SameGS.trans {g h i : GS K} (x : SameGS g h) (y : SameGS h i) : SameGS g i := by
  cases x with
  | expr a b c d e f =>
    cases y with
    | expr a' b' c' d' e' f' =>
      exact .expr ⟨a.expr.trans a'.expr, rel_trans (fun h h' => ⟨identical_trans h.1 h'.1, h.2.1, h'.2.2⟩) a.params a'.params,
        a.nodup, a'.nodup'⟩ (fun k => (b k).trans (b' k)) c d' e f'
  | array h =>
    cases y with
    | array h' => exact .array ⟨identical_trans h.1 h'.1, h.2.1, h'.2.2⟩

/-- **C76.** On series with expressions the comparison is symmetric and transitive, and each series equals itself. -/
theorem C76_series_equivalence {e f g : ME K} {sd sd' sd'' : List (String × String)} (he : GoodSeries e sd) (hf : GoodSeries f sd')
    (hg : GoodSeries g sd'') : GS.eq (.expr e sd) (.expr e sd) ∧
      (GS.eq (.expr e sd) (.expr f sd') → GS.eq (.expr f sd') (.expr e sd)) ∧
      (GS.eq (.expr e sd) (.expr f sd') → GS.eq (.expr f sd') (.expr g sd'') → GS.eq (.expr e sd) (.expr g sd'')) := by
  refine ⟨?_, ?_, ?_⟩
  · rw [C76_series_iff he he]
    exact .expr ⟨rfl, twin_refl_dict he.ok.arrs, he.ok.nodup, he.ok.nodup⟩ (fun _ => rfl) he.series.syms_nodup he.series.syms_nodup
      he.series.dims_nodup he.series.dims_nodup
  · rw [C76_series_iff he hf, C76_series_iff hf he]
    exact SameGS.symm
  · rw [C76_series_iff he hf, C76_series_iff hf hg, C76_series_iff he hg]
    exact SameGS.trans

theorem symbolOf_none {sd : List (String × String)} {d : String} (h : d ∉ sd.map Prod.snd) : symbolOf sd d = d := by
  unfold symbolOf
  have : sd.find? (fun e => e.2 = d) = none := by
    rw [List.find?_eq_none]
    intro x hx hd
    exact h (List.mem_map.2 ⟨x, hx, by simpa using hd⟩)
  rw [this]

theorem symbolOf_same {sd sd' : List (String × String)} (hd : ∀ k, Dict.get? sd k = Dict.get? sd' k) (h1 : (Dict.keys sd).Nodup)
    (h2 : (Dict.keys sd').Nodup) (h3 : (sd.map Prod.snd).Nodup) (h4 : (sd'.map Prod.snd).Nodup) (d : String) :
    symbolOf sd d = symbolOf sd' d := by
  by_cases h : d ∈ sd.map Prod.snd
  · obtain ⟨⟨s, d'⟩, hm, rfl⟩ := List.mem_map.1 h
    have hm' : (s, d') ∈ sd' := Dict.mem_of_get? ((hd s) ▸ Dict.get?_of_mem h1 hm)
    rw [symbolOf_eq h3 hm, symbolOf_eq h4 hm']
  · have h' : d ∉ sd'.map Prod.snd := by
      intro hx
      obtain ⟨⟨s, d'⟩, hm, rfl⟩ := List.mem_map.1 hx
      exact h (List.mem_map.2 ⟨(s, d'), Dict.mem_of_get? ((hd s).symm ▸ Dict.get?_of_mem h2 hm), rfl⟩)
    rw [symbolOf_none h, symbolOf_none h']

theorem set_same {r : A → A → Prop} {a b : List (String × A)} (h : SameDict r a b) {k : String} {v w : A} (hv : r v w) :
    SameDict r (Dict.set a k v) (Dict.set b k w) := by
  intro x
  rw [Dict.get?_set, Dict.get?_set]
  split
  · exact .some hv
  · exact h x

theorem partial_ok [Inhabited K] {dim : String} {c : Coord K} {a : Arr K} (h : (c.partial dim).toArr = .ok a) : a.Ok := by
  cases c with
  | one k => cases h
  | many ks => cases h; exact List.nodup_nil

theorem sublist_snd {sd : List (String × String)} (h : (sd.map Prod.snd).Nodup) (k : String) :
    ((Dict.erase sd k).map Prod.snd).Nodup :=
  h.sublist ((List.filter_sublist).map _)

theorem keys_erase_nodup {sd : List (String × String)} (h : (Dict.keys sd).Nodup) (k : String) : (Dict.keys (Dict.erase sd k)).Nodup := by
  rw [Dict.keys_erase]
  exact h.filter _

theorem fixAll_same [Inhabited K] (cs : List (String × String × Coord K)) {e f : ME K} {sd sd' : List (String × String)}
    (h : SameGS (.expr e sd) (.expr f sd')) : Res SameGS (fixAll e sd cs) (fixAll f sd' cs) := by
  induction cs generalizing e f sd sd' with
  | nil => exact .ok h
  | cons c t ih =>
    obtain ⟨sym, dim, c⟩ := c
    cases h with
    | expr h hd h1 h2 h3 h4 =>
      simp only [fixAll, ME.setParameters, h.expr]
      by_cases hs : sym ∉ f.expr.free
      · simp only [if_pos hs]; exact .error
      · simp only [if_neg hs]
        cases ha : (c.partial dim).toArr with
        | error x => exact .error
        | ok a =>
          have hk : sym ∈ Dict.keys sd ↔ sym ∈ Dict.keys sd' := by
            rw [← Dict.get?_isSome, ← Dict.get?_isSome, hd]
          simp only [hk]
          split
          · exact .error
          · refine ih (.expr ⟨rfl, set_same h.params ⟨identical_refl a, partial_ok ha, partial_ok ha⟩,
              Dict.nodup_keys_set h.nodup, Dict.nodup_keys_set h.nodup'⟩ ?_ (keys_erase_nodup h1 _) (keys_erase_nodup h2 _)
              (sublist_snd h3 _) (sublist_snd h4 _))
            intro k
            rw [Dict.get?_erase, Dict.get?_erase, hd]

theorem full_ok [Inhabited K] (dim : String) (c : Coord K) : (c.full dim).Ok := by
  simp [Coord.full, Arr.Ok, Dict.keys]

theorem update_ok {kw : List (String × Arr K)} (h : ∀ p ∈ kw, p.2.Ok) (d : List (String × Arr K)) (hd : ∀ p ∈ d, p.2.Ok) :
    ∀ p ∈ Dict.update d kw, p.2.Ok := by
  unfold Dict.update
  induction kw generalizing d with
  | nil => exact hd
  | cons e t ih =>
    simp only [List.foldl_cons]
    refine ih (fun p hp => h p (List.mem_cons_of_mem _ hp)) _ ?_
    intro p hp
    have : ∀ {l : List (String × Arr K)} {k v}, (∀ p ∈ l, p.2.Ok) → v.Ok → ∀ p ∈ Dict.set l k v, p.2.Ok := by
      intro l k v hl hv
      induction l with
      | nil => intro p hp; simp only [Dict.set, List.mem_singleton] at hp; subst hp; exact hv
      | cons a t ih' =>
        intro p hp
        simp only [Dict.set] at hp
        split at hp
        · rcases List.mem_cons.1 hp with rfl | hp
          · exact hv
          · exact hl p (List.mem_cons_of_mem _ hp)
        · rcases List.mem_cons.1 hp with rfl | hp
          · exact hl _ List.mem_cons_self
          · exact ih' (fun q hq => hl q (List.mem_cons_of_mem _ hq)) p hp
    exact this hd (h e List.mem_cons_self) p hp

/-- one evaluation of the same series -/
theorem evaluate_same [Inhabited K] [DecidableEq K] {g h : GS K} (x : SameGS g h) (coords : List (String × Coord K)) :
    Res SameGS (g.evaluate coords) (h.evaluate coords) := by
  cases x with
  | array _ => exact .error
  | @expr e f sd sd' a b h1 h2 h3 h4 =>
    have hsym := fun k => symbolOf_same b h1 h2 h3 h4 k
    have hn : e.numVariables = f.numVariables := by
      unfold ME.numVariables
      rw [a.expr, a.length]
    simp only [GS.evaluate, hsym, hn]
    by_cases hc : (coords.length : Int) = f.numVariables
    · rw [if_pos hc, if_pos hc]
      have := evaluate_twin a (twin_refl_dict (update_ok (kw := coords.map fun e => (symbolOf sd' e.1, e.2.full e.1))
        (by intro p hp; obtain ⟨q, _, rfl⟩ := List.mem_map.1 hp; exact full_ok _ _) [] (by simp)))
      revert this
      generalize e.evaluate _ = p
      generalize f.evaluate _ = q
      intro this
      cases this with
      | ok h => exact .ok (.array h)
      | error => exact .error
    · rw [if_neg hc, if_neg hc]
      exact fixAll_same _ (.expr a b h1 h2 h3 h4)

/-- **C76.** Equal series with expressions give the same results for each sequence of evaluations: the same exception, identical
arrays, or series with the same expression, parameters and dimensions. -/
theorem C76_series_evaluate [Inhabited K] [DecidableEq K] {e f : ME K} {sd sd' : List (String × String)} (he : GoodSeries e sd)
    (hf : GoodSeries f sd') (h : GS.eq (.expr e sd) (.expr f sd')) (steps : List (List (String × Coord K))) :
    Res SameGS ((GS.expr e sd).evaluates steps) ((GS.expr f sd').evaluates steps) := by
  have h' := (C76_series_iff he hf).1 h
  clear h
  generalize GS.expr e sd = g at h'
  generalize GS.expr f sd' = k at h'
  induction steps generalizing g k with
  | nil => exact .ok h'
  | cons c t ih =>
    simp only [GS.evaluates]
    have := evaluate_same h' c
    revert this
    generalize g.evaluate c = x
    generalize k.evaluate c = y
    intro this
    cases this with
    | ok h => exact ih _ _ h
    | error => exact .error

namespace EqDemo

/-- C76: the series `2 x + b` of `MathExpr/Series.lean`, written in another order -/
example : GS.eq (.expr (ME.mk line [("a", .const 2)]) [("x", "length"), ("b", "offset")])
    (.expr (ME.mk line [("a", .const (2 : Int))]) [("b", "offset"), ("x", "length")]) := by
  refine ⟨?_, rfl, ?_⟩
  · intro e he
    refine ⟨?_, ?_⟩
    · simp only [List.mem_cons, List.not_mem_nil, or_false] at he
      rcases he with rfl | rfl <;> exact ⟨_, rfl, rfl⟩
    · intro k _
      simp [Dict.keys, or_comm]
  · intro e he
    simp only [List.mem_singleton] at he
    subst he
    exact ⟨⟨_, rfl, identical_refl _⟩, by simp [Dict.keys]⟩

theorem line_good : GoodSeries (ME.mk line [("a", .const 2)]) [("x", "length"), ("b", "offset")] where
  series := line_series
  ok := ⟨by simp [Dict.keys], by simp [Dict.keys], by
    intro p hp
    simp only [List.mem_singleton] at hp
    subst hp
    exact List.nodup_nil⟩
  named := by simp [Expr.free, line, Expr.syms]

/-- C76: an equality that holds in one direction only, and different results -/
theorem C76_counterexample : ∃ e f : ME Int, e.Ok ∧ f.Ok ∧ ME.eq e f ∧ ¬ ME.eq f e ∧
    (∃ r, f.evaluate [("x", .const 1), ("b", .const 1)] = .ok r) ∧
    e.evaluate [("x", .const 1), ("b", .const 1)] = .error .typeError := by
  refine ⟨⟨line, []⟩, ⟨line, [("a", .const 2)]⟩, ⟨by simp, by simp, by simp⟩, line_good.ok, C76_expression_oneway _ _,
    C76_expression_otherway _ (by simp), ⟨_, rfl⟩, rfl⟩

/-- C76: the same values -/
example : Res SameGS ((GS.expr (ME.mk line [("a", .const 2)]) [("x", "length"), ("b", "offset")]).evaluates [[("length", .many [1, 2])]])
    ((GS.expr (ME.mk line [("a", .const 2)]) [("x", "length"), ("b", "offset")]).evaluates [[("length", .many [1, 2])]]) :=
  C76_series_evaluate line_good line_good (C76_series_equivalence line_good line_good line_good).1 _

end EqDemo

end Weldx.Me

namespace Weldx

open Ip TimeSeries

/-! ## Time series and coordinate systems -/

/-- the reference time of a series -/
def TimeSeries.reference {V : Type} : TimeSeries V → Option Int
  | .discrete d => d.ref
  | .expression _ r => r

/-- **C76 (partial).** Equal series have the same values at all times, or raise the same exception, if their reference times are the
same. Missing: series with an expression and different reference times, see `C76_time_series_reference`. -/
theorem C76_time_series_partial {V : Type} [AddCommGroup V] [Module ℝ V] {s s' : TimeSeries V} (h : s.eq s')
    (hr : s.reference = s'.reference) (t : Time) : s.interp t = s'.interp t := by
  cases s <;> cases s'
  · have e : _ = _ := h
    rw [e]
  · exact h.elim
  · exact h.elim
  · have e : _ = _ := h
    simp only [TimeSeries.reference] at hr
    rw [e, hr]

/-- **C76.** Discrete series are equal exactly if all their data is. -/
theorem C76_time_series_discrete {V : Type} (d e : Discrete V) : (TimeSeries.discrete d).eq (.discrete e) ↔ d = e := Iff.rfl

/-- **C76.** A discrete series never equals one with an expression. -/
theorem C76_time_series_kinds {V : Type} (d : Discrete V) (f : Int → V) (r : Option Int) :
    ¬ (TimeSeries.discrete d).eq (.expression f r) ∧ ¬ (TimeSeries.expression f r).eq (.discrete d) := ⟨id, id⟩

/-- **C76, refutation.** Series with the same expression are equal for any reference times, although they have the values of different
points in time. -/
theorem C76_time_series_reference {V : Type} [AddCommGroup V] [Module ℝ V] (f : Int → V) (r r' : Int) {ts : List Int}
    (hm : ts.Pairwise (· < ·)) (q : Option Int) :
    (TimeSeries.expression f (some r)).eq (.expression f (some r')) ∧
    (∃ d, (TimeSeries.expression f (some r)).interp ⟨true, ts, q⟩ = .ok d ∧ d.vals = ts.map fun x => f (x - r)) ∧
    ∃ d, (TimeSeries.expression f (some r')).interp ⟨true, ts, q⟩ = .ok d ∧ d.vals = ts.map fun x => f (x - r') := by
  have key : ∀ r : Int, ∃ d, (TimeSeries.expression f (some r)).interp ⟨true, ts, q⟩ = .ok d ∧ d.vals = ts.map fun x => f (x - r) := by
    intro r
    have h1 := SLcs.ofTime_abs (t := ⟨true, ts, q⟩) rfl hm none
    simp only [Option.none_or] at h1
    have h2 := SLcs.ofTime_abs (t := ⟨true, ts, q⟩) rfl hm (some r)
    simp only [Option.some_or] at h2
    refine ⟨⟨ts.map (· - r), some r, ts.map fun x => f (x - r), .step⟩, ?_, rfl⟩
    simp [TimeSeries.interp, h1, h2, bind, Except.bind, Time.asTimedelta, Time.referenceTime, setMethod, Function.comp_def]
  exact ⟨rfl, key r, key r'⟩

/-- **C76.** Two systems without expressions are equal exactly if they have the same data: orientations, coordinates, times and
reference time. In particular they agree at all times. -/
theorem C76_system {c d : TLcs} (hc : c.WF) (hd : d.WF) : TLcs.eq c d ↔ c = d := by
  constructor
  · rintro ⟨⟨h1, h2, h3⟩, ⟨h4, h5, _⟩, h6⟩
    have ht : c.times = d.times := by
      cases ho : c.orient.isSeries with
      | true => exact (h2 ho).1
      | false =>
        cases hk : c.coord.isSeries with
        | true => exact (h5 hk).1
        | false =>
          have hcd : c.dependent = false := by simp [TLcs.dependent, ho, hk]
          have hdd : d.dependent = false := by
            simp only [TLcs.dependent, ← h1, ← h4, ho, hk, Bool.or_self]
          by_cases hn : c.times = none
          · by_cases hn' : d.times = none
            · rw [hn, hn']
            · exact (h3 (.inr ⟨hdd, hn'⟩)).1
          · exact (h3 (.inl ⟨hcd, hn⟩)).1
    cases c
    cases d
    simp_all
  · rintro rfl
    exact ⟨⟨rfl, fun _ => ⟨rfl, rfl⟩, fun _ => ⟨rfl, rfl⟩⟩, ⟨rfl, fun _ => ⟨rfl, rfl⟩, fun _ => ⟨rfl, rfl⟩⟩, rfl⟩

/-- **C76 (partial).** Equal systems with expressions agree at all times if the reference times of their series are the same. Missing:
different reference times of the series. -/
theorem C76_system_expression_partial {S : Slerp} {c d : SLcs} (h : c.eq d) (hr : c.seriesRef = d.seriesRef) : c = d ∧
    ∀ t r, c.interpTime S t r = d.interpTime S t r := by
  have : c = d := by
    obtain ⟨h1, h2, h3⟩ := h
    have h2 : c.expr = d.expr := h2
    cases c
    cases d
    simp_all
  exact ⟨this, fun _ _ => by rw [this]⟩

/-- **C76, refutation.** Systems that differ only in the reference times of their series are equal, although the second one is at
each time where the first one was before or will be later. -/
theorem C76_system_reference (S : Slerp) {c d : SLcs} {a r r' : Int} (h : c.eq d) (ha : c.ref = some a) (hr : c.seriesRef = some r)
    (hr' : d.seriesRef = some r') (x : Int) :
    d.interpTime S ⟨true, [x], none⟩ none = c.interpTime S ⟨true, [x - (r' - r)], none⟩ none := by
  obtain ⟨h1, h2, h3⟩ := h
  have h2 : c.expr = d.expr := h2
  rw [SLcs.C75_single S (a := a) (r := r') (h3 ▸ ha) (by simp [SLcs.origin, hr']),
    SLcs.C75_single S (a := a) (r := r) ha (by simp [SLcs.origin, hr]), h1, h2]
  have : x - (r' - r) - r = x - r' := by ring
  rw [this]

namespace Me.EqDemo

/-- C76: equal systems at different positions -/
theorem C76_system_counterexample (S : Slerp) : (SLcs.Demo.motion (some 50) (some 100)).eq (SLcs.Demo.motion (some 60) (some 100)) ∧
    (SLcs.Demo.motion (some 50) (some 100)).interpTime S ⟨true, [110], none⟩ none = .ok ⟨none, none, .static 1, .static ![60, 0, 0]⟩ ∧
    (SLcs.Demo.motion (some 60) (some 100)).interpTime S ⟨true, [110], none⟩ none = .ok ⟨none, none, .static 1, .static ![50, 0, 0]⟩ := by
  refine ⟨⟨rfl, rfl, rfl⟩, ?_, ?_⟩
  · rw [SLcs.C75_single S (a := 100) (r := 50) rfl rfl]
    simp [SLcs.Demo.motion]
  · rw [SLcs.C75_single S (a := 100) (r := 60) rfl rfl]
    simp [SLcs.Demo.motion]

/-- C76: a system that is equal to itself only -/
example : TLcs.eq ⟨some [0, 5], some 3, .static 1, .series [![0, 0, 0], ![1, 0, 0]]⟩
    ⟨some [0, 5], some 3, .static 1, .series [![0, 0, 0], ![1, 0, 0]]⟩ ∧
    ¬ TLcs.eq ⟨some [0, 5], some 3, .static 1, .series [![0, 0, 0], ![1, 0, 0]]⟩
      ⟨some [0, 5], some 4, .static 1, .series [![0, 0, 0], ![1, 0, 0]]⟩ := by
  have w : ∀ r : Int, (⟨some [0, 5], some r, .static 1, .series [![0, 0, 0], ![1, 0, 0]]⟩ : TLcs).WF := by
    intro r
    refine ⟨fun _ => ⟨[0, 5], rfl, by simp, by simp, trivial, rfl⟩, (fun h => by cases h), (fun h => by cases h), Rotation.one⟩
  rw [C76_system (w 3) (w 3), C76_system (w 3) (w 4)]
  simp

end Me.EqDemo

end Weldx
