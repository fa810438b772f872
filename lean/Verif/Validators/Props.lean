import Verif.Validators.Nested

/-!
# C32 - C34: shape validation
-/

set_option linter.unusedSimpArgs false

namespace Weldx.Val

/-! ### C32 -/

/-- **C32 (partial).** For an expected shape written in the documented language the validator accepts an
actual shape exactly if it matches the pattern, for any sizes and lengths. Missing: `None` for an arbitrary
size, see `C32_none_counterexample`. -/
theorem C32_shape_language_partial {l : List Item} {p : Pattern} (h : WritesPattern l p) (s : List Int) :
    (∃ d, validateShape s l = .ok d) ↔ p.Matches s := by
  constructor
  · rintro ⟨d, hd⟩
    obtain ⟨hg, hs⟩ := validateShape_sound h hd
    obtain ⟨σ, hσ⟩ := hg.exists
    exact ⟨σ, hs σ hσ⟩
  · rintro ⟨σ, hσ⟩
    obtain ⟨d, hd, _⟩ := validateShape_complete h hσ
    exact ⟨d, hd⟩

/-- **C32.** The dictionary returned for an accepted shape contains the values of the variables: the shape
matches for exactly the assignments that agree with it. -/
theorem C32_variables {l : List Item} {p : Pattern} (h : WritesPattern l p) {s : List Int}
    {d : List (Item × Int)} (hd : validateShape s l = .ok d) (σ : List Char → Int) :
    p.MatchesWith σ s ↔ ∀ x v, Dict.get? d (.str x) = some v → σ x = v := by
  obtain ⟨hg, hs⟩ := validateShape_sound h hd
  constructor
  · intro hm x v hx
    obtain ⟨d', hd', ha⟩ := validateShape_complete h hm
    rw [hd] at hd'; cases hd'
    obtain ⟨y, hy, h1⟩ := ha _ _ (Dict.mem_of_get? hx)
    cases hy; exact h1
  · intro hx
    refine hs σ fun k v hk => ?_
    obtain ⟨x, rfl⟩ := hg.2 k (Dict.mem_keys_of_mem hk)
    exact ⟨x, rfl, hx x v (Dict.get?_of_mem hg.1 hk)⟩

/-- the expected shape `[2, "n", " 3 ~5", "(n)", "..."]` -/
def demoItems : List Item :=
  [.int 2, .str ['n'], .str [' ', '3', ' ', '~', '5'], .str ['(', 'n', ')'], .str ['.', '.', '.']]

/-- its meaning -/
def demoPattern : Pattern :=
  ⟨false, [.fixed 2, .var ['n'], .range (value ['3']) (some (value ['5']))], [.var ['n']], true⟩

theorem demo_writes : WritesPattern demoItems demoPattern := by
  refine ⟨[_, _, _], [_], [_], ?_, ?_, ⟨_, .mk _ rfl, rfl⟩, rfl, by simp [demoPattern]⟩
  · refine .cons (.int 2) (.cons (.str _ _ (.var _ (by decide) (by decide) ?_)) (.cons (.str _ _ ?_) .nil))
    · rintro ⟨_, h⟩; exact absurd (h 'n' (by decide)) (by decide)
    · exact WritesDim.range ['3'] ['5'] (.inr ⟨by simp, by decide⟩) (.inr ⟨by simp, by decide⟩) (fun _ => by decide)
  · refine .cons (.mk _ ['n'] _ rfl (.var _ (by decide) (by decide) ?_)) .nil
    rintro ⟨_, h⟩; exact absurd (h 'n' (by decide)) (by decide)

example : demoPattern.Matches [2, 7, 4, 7, 100] :=
  ⟨fun _ => 7, 1, [2, 7, 4, 7], [100], rfl, by
    refine .cons rfl (.cons rfl (.cons ⟨by decide, ?_⟩ (.cons rfl .nil)))
    intro h hh; cases hh; decide, fun _ => ⟨by decide, rfl⟩⟩

example : validateShape [2, 7, 4, 7, 100] demoItems = .ok [(.str ['n'], 7)] := by rfl

/-- a group of characters between the first `(` and the last `)` -/
theorem inner_split {s t : List Char} (h : inner s = some t) :
    ∃ pre post, s = pre ++ '(' :: t ++ ')' :: post := by
  unfold inner at h
  have h1 := List.takeWhile_append_dropWhile (p := fun c : Char => decide (c ≠ '(')) (l := s)
  cases hd : s.dropWhile (fun c => decide (c ≠ '(')) with
  | nil => rw [hd] at h; cases h
  | cons a u =>
    rw [hd] at h h1
    have ha : a = '(' := by
      have := List.head?_dropWhile_not (fun c : Char => decide (c ≠ '(')) s
      rw [hd] at this; simpa using this
    simp only at h
    have h2 := List.takeWhile_append_dropWhile (p := fun c : Char => decide (c ≠ ')')) (l := u.reverse)
    cases hd2 : u.reverse.dropWhile (fun c => decide (c ≠ ')')) with
    | nil => rw [hd2] at h; cases h
    | cons b w =>
      rw [hd2] at h h2
      have hb : b = ')' := by
        have := List.head?_dropWhile_not (fun c : Char => decide (c ≠ ')')) u.reverse
        rw [hd2] at this; simpa using this
      simp only [Option.some.injEq] at h
      subst h
      have h3 := congrArg List.reverse h2
      simp only [List.reverse_append, List.reverse_cons, List.reverse_reverse] at h3
      refine ⟨s.takeWhile (fun c => decide (c ≠ '(')), (u.reverse.takeWhile (fun c => decide (c ≠ ')'))).reverse, ?_⟩
      have h4 : s = s.takeWhile (fun c => decide (c ≠ '(')) ++ a :: u := h1.symm
      have h5 : u = w.reverse ++ [b] ++ (u.reverse.takeWhile (fun c => decide (c ≠ ')'))).reverse := h3.symm
      generalize s.takeWhile (fun c => decide (c ≠ '(')) = x at h4 ⊢
      generalize (u.reverse.takeWhile (fun c => decide (c ≠ ')'))).reverse = y at h5 ⊢
      rw [h4, h5, ha, hb]; simp

/-- letters and digits, with at most one `~` -/
def DimSyntax (s : List Char) : Prop :=
  s ≠ [] ∧ ((∀ c ∈ s, c.isAlphanum = true) ∨
    ∃ l r, s = l ++ '~' :: r ∧ (∀ c ∈ l, c.isAlphanum = true) ∧ ∀ c ∈ r, c.isAlphanum = true)

theorem split_length {s : List Char} : (split '~' s).length = s.count '~' + 1 := by
  induction s with
  | nil => rfl
  | cons c s ih =>
    by_cases h : c = '~'
    · subst h; simp [split, ih]
    · simp only [split, h, if_false]
      cases hs : split '~' s with
      | nil => rw [hs] at ih; simp at ih
      | cons a b => rw [hs] at ih; simpa [List.count_cons, h] using ih

theorem isRangeFormatValid_syntax {s : List Char} (h : isRangeFormatValid s = true) : DimSyntax s := by
  unfold isRangeFormatValid at h
  split at h
  · rename_i hm
    split at h
    · cases h
    · rename_i hl
      rw [split_length] at hl
      obtain ⟨l, r, rfl⟩ := List.append_of_mem hm
      have hc : l.count '~' = 0 ∧ r.count '~' = 0 := by
        simp [List.count_append] at hl; omega
      refine ⟨by simp, .inr ⟨l, r, rfl, ?_⟩⟩
      have hall : ∀ c ∈ (l ++ '~' :: r).filter (· ≠ '~'), c.isAlphanum = true := by
        rcases Bool.or_eq_true_iff.1 h with h | h
        · unfold isAlnum at h
          simp only [Bool.and_eq_true, List.all_eq_true] at h
          exact h.2
        · rw [List.isEmpty_iff.1 h]; simp
      exact ⟨fun c hc' => hall c (List.mem_filter.2 ⟨by simp [hc'], by
          simp only [ne_eq, decide_eq_true_eq]; rintro rfl; exact List.count_eq_zero.1 hc.1 hc'⟩),
        fun c hc' => hall c (List.mem_filter.2 ⟨by simp [hc'], by
          simp only [ne_eq, decide_eq_true_eq]; rintro rfl; exact List.count_eq_zero.1 hc.2 hc'⟩)⟩
  · unfold isAlnum at h
    simp only [Bool.and_eq_true, List.all_eq_true] at h
    exact ⟨by simpa using h.1, .inl h.2⟩

/-- structure of a list that passes the syntax check -/
def Structured (v : Nat) (l : List Item) : Prop :=
  ∃ lf lo ld, l = lf ++ lo ++ ld ∧ (v = 1 → lf = []) ∧
    (∀ e ∈ lf, '(' ∉ e.chars ∧ hasDots e.chars = false ∧ DimSyntax e.chars) ∧
    (∀ e ∈ lo, ∃ t, e.chars = '(' :: t ++ [')'] ∧ DimSyntax t) ∧
    (ld = [] ∨ ld = [.str ['.', '.', '.']])

theorem validateExpected_structured : ∀ {l : List Item} {v : Nat}, v < 2 → validateExpected v l = .ok () →
    Structured v l := by
  intro l
  induction l with
  | nil => intro v _ _; exact ⟨[], [], [], rfl, fun _ => rfl, by simp, by simp, .inl rfl⟩
  | cons e es ih =>
    intro v hv h
    unfold validateExpected at h
    split at h
    · cases h
    rename_i h1
    split at h
    · cases h
    split at h
    · split at h
      · cases h
      · rename_i h3
        simp only [ne_eq, not_not] at h3
        cases es with
        | nil => exact ⟨[], [], [e], rfl, fun _ => rfl, by simp, by simp, .inr (by rw [h3])⟩
        | cons e' es => simp [validateExpected] at h
    · rename_i hnd
      split at h
      · rename_i hp
        split at h
        · cases h
        · rename_i t ht
          split at h
          · cases h
          · rename_i hc
            simp only [ne_eq, not_or, not_not] at hc
            obtain ⟨lf, lo, ld, s1, s2, s3, s4, s5⟩ := ih (by omega) h
            obtain rfl := s2 rfl
            obtain ⟨pre, post, hs⟩ := inner_split ht
            have hl := congrArg List.length hs
            simp only [List.length_append, List.length_cons] at hl
            obtain rfl : pre = [] := List.length_eq_zero_iff.1 (by omega)
            obtain rfl : post = [] := List.length_eq_zero_iff.1 (by omega)
            refine ⟨[], e :: lo, ld, by rw [s1]; simp, fun _ => rfl, by simp, ?_, s5⟩
            intro x hx
            rcases List.mem_cons.1 hx with rfl | hx
            · exact ⟨t, by simpa using hs, isRangeFormatValid_syntax hc.2⟩
            · exact s4 x hx
      · rename_i hp
        split at h
        · cases h
        · rename_i hf
          simp only [not_not] at hf
          obtain ⟨lf, lo, ld, s1, s2, s3, s4, s5⟩ := ih hv h
          have hv0 : v ≠ 1 := by
            rintro rfl
            exact h1 ⟨rfl, by rintro (hh | hh); exacts [hp hh, hnd hh]⟩
          refine ⟨e :: lf, lo, ld, by rw [s1]; simp, fun h => absurd h hv0, ?_, s4, s5⟩
          intro x hx
          rcases List.mem_cons.1 hx with rfl | hx
          · exact ⟨hp, by simpa using hnd, isRangeFormatValid_syntax hf⟩
          · exact s3 x hx

/-- **C32.** Whatever the list of expected entries is: if a shape is accepted, the list has the documented
structure, that is dimensions, then optional dimensions in parentheses, then at most one `...`, or this
backwards. In particular optional dimensions in the middle are always refused. -/
theorem C32_structure (l : List Item) (s : List Int) (d : List (Item × Int)) (h : validateShape s l = .ok d) :
    Structured 0 (l.map Item.strip) ∨ Structured 0 (l.map Item.strip).reverse := by
  unfold validateShape at h
  cases hp : prepare s l with
  | error x => simp only [hp, bind, Except.bind] at h; cases h
  | ok r =>
    obtain ⟨s', e⟩ := r
    simp only [hp, bind, Except.bind] at h
    cases hv : validateExpected 0 e with
    | error x => simp only [hv] at h; cases h
    | ok u =>
      have := validateExpected_structured (v := 0) (by omega) hv
      unfold prepare at hp
      cases hl : l.map Item.strip with
      | nil => simp only [hl] at hp; cases hp
      | cons a b =>
        simp only [hl, Except.ok.injEq] at hp
        split at hp
        · cases hp; exact .inr this
        · cases hp; exact .inl this

/-- **C32.** Negative numbers are no dimensions: a list with one of them never accepts a shape. -/
theorem C32_negative (l : List Item) (n : ℤ) (hn : n < 0) (hl : Item.int n ∈ l) (s : List Int) (d : List (Item × Int)) :
    validateShape s l ≠ .ok d := by
  intro h
  have hmem : Item.int n ∈ l.map Item.strip := List.mem_map.2 ⟨_, hl, rfl⟩
  have hchars : (Item.int n).chars = '-' :: natChars n.natAbs := by simp [Item.chars, hn]
  have key : ∀ v m, Structured v m → Item.int n ∉ m := by
    rintro v m ⟨lf, lo, ld, rfl, -, h1, h2, h3⟩ hm
    simp only [List.mem_append] at hm
    rcases hm with (hm | hm) | hm
    · obtain ⟨-, -, -, hs⟩ := h1 _ hm
      rw [hchars] at hs
      rcases hs with hs | ⟨a, b, hab, ha, -⟩
      · exact absurd (hs '-' (by simp)) (by decide)
      · cases a with
        | nil => simp at hab
        | cons c a =>
          simp only [List.cons_append, List.cons.injEq] at hab
          rw [← hab.1] at ha
          exact absurd (ha '-' (by simp)) (by decide)
    · obtain ⟨t, ht, -⟩ := h2 _ hm
      rw [hchars] at ht
      simp at ht
    · rcases h3 with rfl | rfl
      · cases hm
      · simp at hm
  rcases C32_structure l s d h with hs | hs
  · exact key _ _ hs hmem
  · exact key _ _ hs (List.mem_reverse.2 hmem)

/-- **C32 fails for `None`**, which is documented as "a single dimension of arbitrary length": it is treated as
a variable, so two of them have to be equal. In a schema `~` without quotes is read as `None`. -/
theorem C32_none_counterexample :
    (⟨false, [.range 0 none, .range 0 none], [], false⟩ : Pattern).Matches [2, 3] ∧
    validateShape [2, 3] [.null, .null] = .error .validationError ∧
    validateShape [2, 2] [.null, .null] = .ok [(.null, 2)] := by
  refine ⟨⟨fun _ => 0, 0, [2, 3], [], rfl, ?_, by simp⟩, rfl, rfl⟩
  exact .cons ⟨by decide, by simp⟩ (.cons ⟨by decide, by simp⟩ .nil)

/-! ### C33 -/

/-- **C33.** A tree is accepted exactly if there is one value for each variable such that all shapes that
belong to a node of the tree match, where an entry is ignored if it comes after a key of the same dictionary
that is missing (and shapes can only be missing for optional keys). -/
theorem C33_one_value {e : Exp} (hw : WellFormed e) (n : Node) :
    wxShape e n = .accepted ↔
      ∃ σ, ∀ e' o' n', Belongs false e false n e' o' n' → Satisfies σ e' o' n' := by
  constructor
  · intro h
    unfold wxShape at h
    cases hv : validate n false e with
    | error x => rw [hv] at h; cases x <;> cases h
    | ok r =>
      cases r with
      | none => rw [hv] at h; cases h
      | some d =>
        obtain ⟨hg, hs⟩ := validate_sound e hw n false d hv
        obtain ⟨σ, hσ⟩ := hg.exists
        exact ⟨σ, hs σ hσ⟩
  · rintro ⟨σ, hσ⟩
    obtain ⟨d, hd, _⟩ := validate_complete e hw n false hσ
    simp [wxShape, hd]

/-- The full statement: all entries whose key is present are checked. -/
def AllChecked (e : Exp) (n : Node) : Prop :=
  wxShape e n = .accepted → ∃ σ, ∀ e' o' n', Belongs true e false n e' o' n' → Satisfies σ e' o' n'

theorem Belongs.complete {e e' : Exp} {o o' : Bool} {n n' : Node} (h : Belongs true e o n e' o' n')
    (hp : ∀ es o1 n1, Belongs true e o n (.dict es) o1 n1 → ∀ x ∈ es.toList, Present x.1 n1) :
    Belongs false e o n e' o' n' := by
  induction h with
  | here e o n => exact .here e o n
  | down es o n pre post k name e o1 c e' o' n' hes hpre hk hc h ih =>
    refine .down es o n pre post k name e o1 c e' o' n' hes (fun _ x hx => ?_) hk hc (ih ?_)
    · exact hp es o n (.here _ _ _) x (by rw [hes]; simp [hx])
    · intro es1 o2 n1 hb
      exact hp es1 o2 n1 (.down es o n pre post k name e o1 c _ _ _ hes (fun h => by cases h) hk hc hb)

/-- **C33 (partial).** If no expected key is missing, all shapes are checked. Missing: trees with missing keys,
for which it is false, see `C33_missing_key_counterexample`. -/
theorem C33_all_checked_partial {e : Exp} (hw : WellFormed e) (n : Node)
    (hp : ∀ es o n', Belongs true e false n (.dict es) o n' → ∀ x ∈ es.toList, Present x.1 n') :
    AllChecked e n := by
  intro h
  obtain ⟨σ, hσ⟩ := (C33_one_value hw n).1 h
  exact ⟨σ, fun e' o' n' hb => hσ e' o' n' (hb.complete hp)⟩

theorem writes_one (k : Nat) : WritesPattern [.int k] ⟨false, [.fixed k], [], false⟩ :=
  ⟨[.int k], [], [], .cons (.int k) .nil, .nil, rfl, rfl, by simp⟩

theorem writes_n : WritesPattern [.str ['n']] ⟨false, [.var ['n']], [], false⟩ := by
  refine ⟨[_], [], [], .cons (.str _ _ (.var _ (by decide) (by decide) ?_)) .nil, .nil, rfl, rfl, by simp⟩
  rintro ⟨_, h⟩; exact absurd (h 'n' (by decide)) (by decide)

theorem key_plain (c : Char) : KeyName [c] [c] false := by
  refine .plain _ ?_
  rintro ⟨m, h⟩
  have := congrArg List.length h
  simp at this

/-- a mapping with a shape -/
def withShape (s : List Int) : Node := .mapping (some s) []

/-- **C33 fails for missing keys.** For `{a: [1], b: [2]}` and a tree without the (not optional) key `a`, the
shape of `b` is not checked. -/
theorem C33_missing_key_counterexample : ∃ e n, WellFormed e ∧ wxShape e n = .accepted ∧ ¬ AllChecked e n := by
  refine ⟨.dict (.cons ['a'] (.shape [.int 1]) (.cons ['b'] (.shape [.int 2]) .nil)),
    .mapping none [(['b'], withShape [3])], ?_, by rfl, ?_⟩
  · refine .dict _ ?_ ?_
    · intro x hx
      simp [Exps.toList] at hx
      rcases hx with rfl | rfl <;> exact ⟨_, _, key_plain _⟩
    · intro x hx
      simp [Exps.toList] at hx
      rcases hx with rfl | rfl <;> exact .shape _ _ (writes_one _)
  · intro h
    obtain ⟨σ, hσ⟩ := h rfl
    have := hσ (.shape [.int 2]) false (withShape [3])
      (.down _ _ _ [(['a'], .shape [.int 1])] [] ['b'] ['b'] _ false (withShape [3]) _ _ _ rfl (by simp) (key_plain _) rfl (.here _ _ _))
    have := this _ (writes_one 2)
    simp only [Node.shape, withShape] at this
    obtain ⟨k, head, rest, h1, h2, h3⟩ := this
    simp only [List.take_nil, List.append_nil] at h2
    cases h2 with
    | cons a b =>
      simp only [Dim.Ok] at a
      simp only [List.cons_append, List.cons.injEq] at h1
      omega

/-- a tree with two shapes that share a variable -/
example : wxShape (.dict (.cons ['a'] (.shape [.str ['n']]) (.cons ['b'] (.shape [.str ['n'], .int 3]) .nil)))
    (.mapping none [(['a'], withShape [5]), (['b'], withShape [5, 3])]) = .accepted := by rfl

example : wxShape (.dict (.cons ['a'] (.shape [.str ['n']]) (.cons ['b'] (.shape [.str ['n'], .int 3]) .nil)))
    (.mapping none [(['a'], withShape [5]), (['b'], withShape [4, 3])]) = .rejected := by rfl

/-! ### C34 -/

/-- The full statement for a single shape: no exception except the validation error. -/
def NoCrash (l : List Item) (s : List Int) : Prop :=
  (∃ d, validateShape s l = .ok d) ∨ validateShape s l = .error .validationError

/-- **C34 (partial).** For an expected shape in the documented language and any shape of non-negative sizes,
the validator accepts or reports a validation error, if all sizes reach the lower limits of the intervals
without upper limit, and if the shape is not shorter than the required dimensions or these contain no variable.
Missing: the other shapes, for which it is false, see `C34_interval_counterexample` and
`C34_variable_counterexample`. -/
theorem C34_no_crash_partial {l : List Item} {p : Pattern} (h : WritesPattern l p) {s : List Int}
    (h0 : ∀ v ∈ s, 0 ≤ v) (hr : ∀ lo : Nat, .range lo none ∈ p.fixed ++ p.opts → ∀ v ∈ s, (lo : Int) ≤ v)
    (hv : p.fixed.length ≤ s.length ∨ ∀ x, .var x ∉ p.fixed) : NoCrash l s :=
  validateShape_safe h h0 hr hv

example : NoCrash demoItems [2, 7, 6] := by
  refine C34_no_crash_partial demo_writes (by decide) ?_ (.inl (by decide))
  intro lo h
  simp [demoPattern] at h

/-- **C34 fails** for a size below an interval without upper limit: `[1]` against `["2~"]` (as in the schema of
`single_pass_weld`) raises a syntax error about a descending range. -/
theorem C34_interval_counterexample : ∃ l p s, WritesPattern l p ∧ (∀ v ∈ s, 0 ≤ v) ∧ ¬ p.Matches s ∧
    ¬ NoCrash l s ∧ wxShape (.shape l) (withShape s) = .crashed .syntaxError := by
  refine ⟨[.str ['2', '~']], ⟨false, [.range (value ['2']) none], [], false⟩, [1], ?_, by decide, ?_, ?_, by rfl⟩
  · refine ⟨[_], [], [], .cons (.str _ _ ?_) .nil, .nil, rfl, rfl, by simp⟩
    exact WritesDim.range ['2'] [] (.inr ⟨by simp, by decide⟩) (.inl rfl) (by simp)
  · rintro ⟨σ, k, head, rest, h1, h2, h3⟩
    simp only [List.take_nil, List.append_nil] at h2
    cases h2 with
    | cons a b =>
      simp only [Dim.Ok] at a
      simp only [List.cons_append, List.cons.injEq] at h1
      have : value ['2'] = 2 := by decide
      rw [this] at a
      have := a.1
      omega
  · have he : validateShape [1] [.str ['2', '~']] = .error .syntaxError := by rfl
    rintro (⟨d, h⟩ | h) <;> rw [he] at h <;> cases h

/-- **C34 fails** for a missing dimension that is a variable: `[1]` against `[1, "n"]` raises an index error. -/
theorem C34_variable_counterexample : ∃ l p s, WritesPattern l p ∧ (∀ v ∈ s, 0 ≤ v) ∧ ¬ p.Matches s ∧
    ¬ NoCrash l s ∧ wxShape (.shape l) (withShape s) = .crashed .indexError := by
  refine ⟨[.int 1, .str ['n']], ⟨false, [.fixed 1, .var ['n']], [], false⟩, [1], ?_, by decide, ?_, ?_, by rfl⟩
  · refine ⟨[_, _], [], [], .cons (.int 1) (.cons (.str _ _ (.var _ (by decide) (by decide) ?_)) .nil), .nil, rfl, rfl, by simp⟩
    rintro ⟨_, h⟩; exact absurd (h 'n' (by decide)) (by decide)
  · rintro ⟨σ, k, head, rest, h1, h2, h3⟩
    simp only [List.take_nil, List.append_nil] at h2
    cases h2 with
    | cons a b =>
      cases b with
      | cons c d =>
        simp at h1
  · have he : validateShape [1] [.int 1, .str ['n']] = .error .indexError := by rfl
    rintro (⟨d, h⟩ | h) <;> rw [he] at h <;> cases h

/-- **C34 fails** for conflicting values of a variable in a nested dictionary: the result `False` of the inner
call is iterated over. -/
theorem C34_nested_counterexample : ∃ e n, WellFormed e ∧ wxShape e n = .crashed .typeError := by
  refine ⟨.dict (.cons ['x'] (.dict (.cons ['a'] (.shape [.str ['n']]) (.cons ['b'] (.shape [.str ['n']]) .nil))) .nil),
    .mapping none [(['x'], .mapping none [(['a'], withShape [5]), (['b'], withShape [4])])], ?_, by rfl⟩
  refine .dict _ ?_ ?_
  · intro x hx
    simp [Exps.toList] at hx
    subst hx; exact ⟨_, _, key_plain _⟩
  · intro x hx
    simp [Exps.toList] at hx
    subst hx
    refine .dict _ ?_ ?_
    · intro x hx
      simp [Exps.toList] at hx
      rcases hx with rfl | rfl <;> exact ⟨_, _, key_plain _⟩
    · intro x hx
      simp [Exps.toList] at hx
      rcases hx with rfl | rfl <;> exact .shape _ _ writes_n

end Weldx.Val
