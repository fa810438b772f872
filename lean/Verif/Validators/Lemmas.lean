import Verif.Validators.Spec
import Mathlib.Tactic.IntervalCases
import Mathlib.Data.Nat.Digits.Lemmas

/-!
# Lemmas about the shape validator
-/

set_option linter.unusedSimpArgs false

namespace Weldx.Val

/-! ### strings -/

theorem isNumeric_iff {s : List Char} : isNumeric s = true ↔ Digits s := by
  cases s <;> simp [isNumeric, Digits]

theorem isAlnum_iff {s : List Char} : isAlnum s = true ↔ s ≠ [] ∧ ∀ c ∈ s, c.isAlphanum = true := by
  cases s <;> simp [isAlnum]

theorem toInt_eq (s : List Char) : toInt s = value s := by
  induction s using List.reverseRecOn with
  | nil => rfl
  | append_singleton s c ih =>
    simp only [toInt, List.foldl_append, List.foldl_cons, List.foldl_nil, value, List.reverse_append,
      List.reverse_cons, List.reverse_nil, List.nil_append, List.singleton_append, List.map_cons,
      Nat.ofDigits_cons] at ih ⊢
    rw [ih]
    have : '0'.toNat = 48 := rfl
    rw [this]; push_cast; ring

theorem digit_toNat {d : Nat} (h : d < 10) :
    (Char.ofNat (48 + d)).toNat - '0'.toNat = d ∧ (Char.ofNat (48 + d)).isDigit = true := by
  interval_cases d <;> decide

theorem natChars_spec (n : Nat) : Digits (natChars n) ∧ value (natChars n) = n := by
  unfold natChars
  by_cases h : n = 0
  · subst h; simp only [if_true]; refine ⟨⟨by simp, by decide⟩, by decide⟩
  · rw [if_neg h]
    refine ⟨⟨?_, ?_⟩, ?_⟩
    · simp [Nat.digits_ne_nil_iff_ne_zero.2 h]
    · intro c hc
      simp only [List.mem_map, List.mem_reverse] at hc
      obtain ⟨d, hd, rfl⟩ := hc
      exact (digit_toNat (Nat.digits_lt_base (by norm_num) hd)).2
    · unfold value
      rw [← List.map_reverse, List.reverse_reverse, List.map_map]
      have : (Nat.digits 10 n).map ((fun c => c.toNat - '0'.toNat) ∘ fun d => Char.ofNat (48 + d)) = Nat.digits 10 n := by
        conv_rhs => rw [← List.map_id (Nat.digits 10 n)]
        apply List.map_congr_left
        intro d hd
        exact (digit_toNat (Nat.digits_lt_base (by norm_num) hd)).1
      rw [this, Nat.ofDigits_digits]

theorem alnum_of_digit {c : Char} (h : c.isDigit = true) : c.isAlphanum = true := by
  simp [Char.isAlphanum, h]

theorem split_none {sep : Char} {s : List Char} (h : sep ∉ s) : split sep s = [s] := by
  induction s with
  | nil => rfl
  | cons c cs ih =>
    simp only [List.mem_cons, not_or] at h
    simp [split, Ne.symm h.1, ih h.2]

theorem split_one {sep : Char} {l r : List Char} (hl : sep ∉ l) (hr : sep ∉ r) :
    split sep (l ++ sep :: r) = [l, r] := by
  induction l with
  | nil => simp [split, split_none hr]
  | cons c cs ih =>
    simp only [List.mem_cons, not_or] at hl
    simp [split, Ne.symm hl.1, ih hl.2]

/-- characters of a written dimension -/
theorem WritesDim.chars {s : List Char} {d : Dim} (h : WritesDim s d) :
    s ≠ [] ∧ ∀ c ∈ s, c.isAlphanum = true ∨ c = '~' := by
  cases h with
  | fixed s h => exact ⟨h.1, fun c hc => .inl (alnum_of_digit (h.2 c hc))⟩
  | var s h h0 hn => exact ⟨h0, fun c hc => .inl (h c hc)⟩
  | range l r hl hr hle =>
    refine ⟨by simp, fun c hc => ?_⟩
    simp only [List.mem_append, List.mem_cons] at hc
    rcases hc with hc | rfl | hc
    · rcases hl with rfl | hl
      · simp at hc
      · exact .inl (alnum_of_digit (hl.2 c hc))
    · exact .inr rfl
    · rcases hr with rfl | hr
      · simp at hc
      · exact .inl (alnum_of_digit (hr.2 c hc))

theorem not_mem_of_chars {s : List Char} (h : ∀ c ∈ s, c.isAlphanum = true ∨ c = '~') {x : Char}
    (hx : x.isAlphanum = false) (hx' : x ≠ '~') : x ∉ s := by
  intro hm
  rcases h x hm with h | h
  · rw [hx] at h; cases h
  · exact hx' h

theorem hasDots_false {s : List Char} (h : '.' ∉ s) : hasDots s = false := by
  simp only [hasDots, decide_eq_false_iff_not]
  intro hi
  exact h (hi.subset (by simp))

theorem not_tilde_of_digits {s : List Char} (h : s = [] ∨ Digits s) : '~' ∉ s := by
  rcases h with rfl | h
  · simp
  · intro hm; have := h.2 _ hm; exact absurd this (by decide)

theorem WritesDim.paren {s : List Char} {d : Dim} (h : WritesDim s d) : '(' ∉ s :=
  not_mem_of_chars h.chars.2 (by decide) (by decide)

theorem WritesDim.dots {s : List Char} {d : Dim} (h : WritesDim s d) : hasDots s = false :=
  hasDots_false (not_mem_of_chars h.chars.2 (by decide) (by decide))

theorem WritesDim.format {s : List Char} {d : Dim} (h : WritesDim s d) : isRangeFormatValid s = true := by
  cases h with
  | fixed s h =>
    have : '~' ∉ s := not_tilde_of_digits (.inr h)
    simp only [isRangeFormatValid, this, if_false]
    exact isAlnum_iff.2 ⟨h.1, fun c hc => alnum_of_digit (h.2 c hc)⟩
  | var s h h0 hn =>
    have : '~' ∉ s := fun hm => absurd (h _ hm) (by decide)
    simp only [isRangeFormatValid, this, if_false]
    exact isAlnum_iff.2 ⟨h0, h⟩
  | range l r hl hr hle =>
    have hl' := not_tilde_of_digits hl
    have hr' := not_tilde_of_digits hr
    have hf : (l ++ '~' :: r).filter (· ≠ '~') = l ++ r := by
      rw [List.filter_append, List.filter_cons]
      rw [List.filter_eq_self.2 (fun c hc => by simp only [ne_eq, decide_eq_true_eq]; rintro rfl; exact hl' hc)]
      rw [List.filter_eq_self.2 (fun c hc => by simp only [ne_eq, decide_eq_true_eq]; rintro rfl; exact hr' hc)]
      simp
    have hm : '~' ∈ l ++ '~' :: r := by simp
    simp only [isRangeFormatValid, hm, if_true, split_one hl' hr', List.length_cons, List.length_nil]
    rw [hf]
    cases hlr : l ++ r with
    | nil => simp
    | cons a b =>
      rw [← hlr]
      have : isAlnum (l ++ r) = true := isAlnum_iff.2 ⟨by rw [hlr]; simp, fun c hc => by
        rcases List.mem_append.1 hc with hc | hc
        · rcases hl with rfl | hl
          · simp at hc
          · exact alnum_of_digit (hl.2 c hc)
        · rcases hr with rfl | hr
          · simp at hc
          · exact alnum_of_digit (hr.2 c hc)⟩
      simp [this]

/-! ### one dimension -/

theorem limit_eq {s : List Char} (h : s = [] ∨ Digits s) (o : Int) :
    limit s o = .ok (if s = [] then o else (value s : Int)) := by
  unfold limit
  rcases h with rfl | h
  · simp
  · rw [if_neg h.1, if_neg h.1, if_pos (isNumeric_iff.2 h), toInt_eq]

/-- `_compare` on a written dimension that is no variable: accepted exactly if allowed -/
theorem compare_true {s : List Char} {d : Dim} (h : WritesDim s d) (hv : ∀ x, d ≠ .var x) (v : Int)
    (σ : List Char → Int) : compare v s = .ok true ↔ d.Ok σ v := by
  cases h with
  | var s h h0 hn => exact absurd rfl (hv s)
  | fixed s h =>
    have ht : '~' ∉ s := not_tilde_of_digits (.inr h)
    unfold compare
    simp only [ht, if_false, isNumeric_iff.2 h, if_true, Dim.Ok, toInt_eq]
    by_cases hn : v < 0
    · simp only [hn, if_true, reduceCtorEq, false_iff]; omega
    · simp [hn]
  | range l r hl hr hle =>
    have hl' := not_tilde_of_digits hl
    have hr' := not_tilde_of_digits hr
    have hm : '~' ∈ l ++ '~' :: r := by simp
    unfold compare
    simp only [hm, if_true, split_one hl' hr', limit_eq hl, limit_eq hr, bind, Except.bind, Dim.Ok]
    have hl0 : (if l = [] then (0 : Int) else (value l : Int)) = value l := by
      split
      · subst l; rfl
      · rfl
    rw [hl0]
    by_cases hn : v < 0
    · simp only [hn, if_true, reduceCtorEq, false_iff]
      intro hc; have := hc.1; omega
    · simp only [hn, if_false]
      by_cases hr0 : r = []
      · subst hr0
        simp only [if_true, Option.mem_def, reduceCtorEq, false_implies, implies_true, and_true]
        by_cases hgt : (value l : Int) > v
        · simp only [hgt, if_true, reduceCtorEq, false_iff]; omega
        · simp only [hgt, if_false, Except.ok.injEq, decide_eq_true_eq]; omega
      · have := hle hr0
        have hng : ¬ ((value l : Int) > value r) := by omega
        simp only [hr0, if_false, hng, Option.mem_def, Option.some.injEq, forall_eq', Except.ok.injEq,
          decide_eq_true_eq]

/-- values of variables agree with a dictionary -/
def Agrees (σ : List Char → Int) (d : List (Item × Int)) : Prop :=
  ∀ k v, (k, v) ∈ d → ∃ x, k = .str x ∧ σ x = v

/-- dictionaries of variables -/
def Good (d : List (Item × Int)) : Prop := (Dict.keys d).Nodup ∧ ∀ k ∈ Dict.keys d, ∃ x, k = .str x

theorem Good.exists {d : List (Item × Int)} (h : Good d) : ∃ σ, Agrees σ d := by
  refine ⟨fun x => (Dict.get? d (.str x)).getD 0, fun k v hk => ?_⟩
  obtain ⟨x, rfl⟩ := h.2 k (List.mem_map.2 ⟨_, hk, rfl⟩)
  exact ⟨x, rfl, by simp [Dict.get?_of_mem h.1 hk]⟩

theorem Good.nil : Good [] := ⟨by simp [Dict.keys], by simp [Dict.keys]⟩

theorem Agrees.nil {σ : List Char → Int} : Agrees σ [] := fun _ _ h => by simp at h

/-- entry of a prepared list for a dimension -/
def Prep (e : Item) (d : Dim) : Prop := WritesDim e.chars d ∧ ∀ x, d = .var x → e = .str x

theorem isVar {s : List Char} {d : Dim} (h : WritesDim s d) :
    (isAlnum s && !isNumeric s) = true ↔ ∃ x, d = .var x := by
  cases h with
  | fixed s hs => simp [isNumeric_iff.2 hs]
  | var s h1 h0 hn =>
    have : isNumeric s = false := by
      cases hx : isNumeric s
      · rfl
      · exact absurd (isNumeric_iff.1 hx) hn
    simp [this, isAlnum_iff.2 ⟨h0, h1⟩]
  | range l r hl hr hle =>
    have : isAlnum (l ++ '~' :: r) = false := by
      cases hx : isAlnum (l ++ '~' :: r)
      · rfl
      · exact absurd ((isAlnum_iff.1 hx).2 '~' (by simp)) (by decide)
    simp [this]

theorem checkDim_sound {shape : List Int} {i : Nat} {d d' : List (Item × Int)} {e : Item} {D : Dim}
    (hp : Prep e D) (h : checkDim shape i d e = .ok (some d')) :
    ∃ v, shape[i]? = some v ∧ (Good d → Good d') ∧
      ∀ σ, Agrees σ d' → Agrees σ d ∧ D.Ok σ v := by
  unfold checkDim at h
  cases hv : shape[i]? with
  | none =>
    rw [hv] at h
    split at h
    · split at h <;> cases h
    · cases h
  | some v =>
    rw [hv] at h
    refine ⟨v, rfl, ?_⟩
    split at h
    · rename_i hvar
      obtain ⟨x, rfl⟩ := (isVar hp.1).1 hvar
      obtain rfl := hp.2 x rfl
      split at h
      · rename_i hg
        simp only [Except.ok.injEq, Option.some.injEq] at h
        have hnm := Dict.get?_eq_none.1 hg
        rw [Dict.set_of_not_mem hnm] at h
        subst h
        refine ⟨fun hd => ⟨?_, ?_⟩, fun σ ha => ⟨fun k w hk => ha k w (by simp [hk]), ?_⟩⟩
        · rw [Dict.keys_append]; exact List.nodup_append.2 ⟨hd.1, by simp, by
            intro a ha b hb; simp at hb; subst hb; rintro rfl; exact hnm ha⟩
        · intro k hk
          rw [Dict.keys_append, List.mem_append] at hk
          rcases hk with hk | hk
          · exact hd.2 k hk
          · simp at hk; exact ⟨x, hk⟩
        · obtain ⟨y, hy, hs⟩ := ha (.str x) v (by simp)
          cases hy; exact hs
      · rename_i w hg
        simp only at h
        split at h
        · cases h
        · rename_i hne
          simp only [Except.ok.injEq, Option.some.injEq] at h
          subst h
          refine ⟨id, fun σ ha => ⟨ha, ?_⟩⟩
          obtain ⟨y, hy, hs⟩ := ha (.str x) w (Dict.mem_of_get? hg)
          cases hy
          simp only [ne_eq, not_not] at hne
          rw [hne]; exact hs
    · rename_i hvar
      rw [isVar hp.1] at hvar
      simp only at h
      cases hc : compare v e.chars with
      | error x => rw [hc] at h; cases h
      | ok b =>
        rw [hc] at h
        cases b with
        | false => cases h
        | true =>
          simp only [if_true, Except.ok.injEq, Option.some.injEq] at h
          subst h
          exact ⟨id, fun σ ha => ⟨ha, (compare_true hp.1 (fun x hx => hvar ⟨x, hx⟩) v σ).1 hc⟩⟩

theorem checkDim_complete {shape : List Int} {i : Nat} {d : List (Item × Int)} {e : Item} {D : Dim}
    (hp : Prep e D) {σ : List Char → Int} {v : Int} (hv : shape[i]? = some v) (ha : Agrees σ d)
    (hok : D.Ok σ v) : ∃ d', checkDim shape i d e = .ok (some d') ∧ Agrees σ d' := by
  unfold checkDim
  rw [hv]
  split
  · rename_i hvar
    obtain ⟨x, rfl⟩ := (isVar hp.1).1 hvar
    obtain rfl := hp.2 x rfl
    split
    · rename_i hg
      refine ⟨_, rfl, ?_⟩
      rw [Dict.set_of_not_mem (Dict.get?_eq_none.1 hg)]
      intro k w hk
      rcases List.mem_append.1 hk with hk | hk
      · exact ha k w hk
      · simp at hk; obtain ⟨rfl, rfl⟩ := hk; exact ⟨x, rfl, hok⟩
    · rename_i w hg
      obtain ⟨y, hy, hs⟩ := ha (.str x) w (Dict.mem_of_get? hg)
      cases hy
      have : v = w := hok.symm.trans hs
      exact ⟨d, by simp [this], ha⟩
  · rename_i hvar
    rw [isVar hp.1] at hvar
    refine ⟨d, ?_, ha⟩
    simp only [(compare_true hp.1 (fun x hx => hvar ⟨x, hx⟩) v σ).2 hok, if_true]

/-! ### lists -/

/-- entry of a prepared list for an optional dimension -/
def PrepOpt (e : Item) (d : Dim) : Prop := ∃ t, e = .str ('(' :: t ++ [')']) ∧ WritesDim t d

theorem inner_eq (t : List Char) : inner ('(' :: t ++ [')']) = some t := by
  simp [inner]

theorem PrepOpt.facts {e : Item} {d : Dim} (h : PrepOpt e d) :
    hasDots e.chars = false ∧ '(' ∈ e.chars ∧ ∃ t, inner e.chars = some t ∧ Prep (.str t) d ∧
      t.length + 2 = e.chars.length := by
  obtain ⟨t, rfl, ht⟩ := h
  refine ⟨hasDots_false ?_, by simp [Item.chars], t, inner_eq t, ⟨ht, fun x hx => ?_⟩, by simp [Item.chars]⟩
  · have := not_mem_of_chars ht.chars.2 (x := '.') (by decide) (by decide)
    simp [Item.chars, this]
  · subst hx; cases ht; rfl

theorem Prep.facts {e : Item} {d : Dim} (h : Prep e d) : hasDots e.chars = false ∧ '(' ∉ e.chars :=
  ⟨h.1.dots, h.1.paren⟩

/-- the meaning of a pattern with the variable part at the end, in recursive form -/
def M (σ : List Char → Int) : List Dim → List Dim → Bool → List Int → Prop
  | f :: fs, os, l, v :: vs => f.Ok σ v ∧ M σ fs os l vs
  | _ :: _, _, _, [] => False
  | [], o :: os, l, v :: vs => o.Ok σ v ∧ M σ [] os l vs
  | [], [], l, _ :: _ => l = true
  | [], _, _, [] => True

theorem M_nil {σ : List Char → Int} {os : List Dim} {l : Bool} : M σ [] os l [] := by
  cases os <;> simp [M]

/-- the entry for the ellipsis -/
def PrepDots (ell : Bool) (ld : List Item) : Prop :=
  if ell then ld = [.str ['.', '.', '.']] else ld = []

theorem drop_cons {α : Type} {l : List α} {i : Nat} {v : α} (h : l[i]? = some v) :
    l.drop i = v :: l.drop (i + 1) := by
  have hi : i < l.length := by
    by_contra hc; rw [List.getElem?_eq_none (by omega)] at h; cases h
  rw [List.drop_eq_getElem_cons hi]
  rw [List.getElem?_eq_getElem hi] at h
  rw [Option.some.inj h]

theorem loop_opts_sound {shape : List Int} {ell : Bool} {ld : List Item} (hld : PrepDots ell ld) :
    ∀ {lo : List Item} {os : List Dim} {i : Nat} {d d' : List (Item × Int)} {b : Bool},
      List.Forall₂ PrepOpt lo os → compareLoop shape i d (lo ++ ld) = .ok (some (d', b)) →
      (b = true ∨ shape.length ≤ i + (lo ++ ld).length) → b = ell ∧ (Good d → Good d') ∧
        ∀ σ, Agrees σ d' → Agrees σ d ∧ M σ [] os ell (shape.drop i) := by
  intro lo
  induction lo with
  | nil =>
    intro os i d d' b h hl hlen
    cases h
    cases ell with
    | false =>
      have hld : ld = [] := hld
      subst hld
      simp only [List.append_nil, compareLoop, Except.ok.injEq, Option.some.injEq, Prod.mk.injEq] at hl
      obtain ⟨rfl, rfl⟩ := hl
      simp only [List.append_nil, List.length_nil, Nat.add_zero, Bool.false_eq_true, false_or] at hlen
      refine ⟨rfl, id, fun σ ha => ⟨ha, ?_⟩⟩
      rw [List.drop_eq_nil_of_le hlen]; exact M_nil
    | true =>
      have hld : ld = [.str ['.', '.', '.']] := hld
      subst hld
      have hd : hasDots (Item.str ['.', '.', '.']).chars = true := by decide
      simp only [List.nil_append, compareLoop, hd, if_true, Except.ok.injEq, Option.some.injEq, Prod.mk.injEq] at hl
      obtain ⟨rfl, rfl⟩ := hl
      refine ⟨rfl, id, fun σ ha => ⟨ha, ?_⟩⟩
      cases shape.drop i <;> simp [M]
  | cons e lo ih =>
    intro os i d d' b h hl hlen
    cases h with
    | cons he h =>
    rename_i o os
    obtain ⟨f1, f2, t, f3, f4, f5⟩ := he.facts
    simp only [List.cons_append, compareLoop, f1, Bool.false_eq_true, if_false, f2, true_and, if_true, f3,
      Option.map_some] at hl
    have hlen' : b = true ∨ shape.length ≤ i + 1 + (lo ++ ld).length := by
      rcases hlen with h | h
      · exact .inl h
      · right; simp only [List.cons_append, List.length_cons] at h; omega
    split at hl
    · rename_i hi
      obtain ⟨h1, h2, h3⟩ := ih h hl hlen'
      refine ⟨h1, h2, fun σ ha => ⟨(h3 σ ha).1, ?_⟩⟩
      rw [List.drop_eq_nil_of_le (by omega)]; exact M_nil
    · rename_i hi
      split at hl
      · cases hl
      · cases hl
      · rename_i d1 hc
        obtain ⟨v, hv, hg, hs⟩ := checkDim_sound f4 hc
        obtain ⟨h1, h2, h3⟩ := ih h hl hlen'
        refine ⟨h1, h2 ∘ hg, fun σ ha => ?_⟩
        obtain ⟨ha1, hm⟩ := h3 σ ha
        obtain ⟨ha2, hok⟩ := hs σ ha1
        rw [drop_cons hv]
        exact ⟨ha2, hok, hm⟩

theorem loop_sound {shape : List Int} {ell : Bool} {ld lo : List Item} {os : List Dim}
    (hld : PrepDots ell ld) (ho : List.Forall₂ PrepOpt lo os) :
    ∀ {lf : List Item} {fs : List Dim} {i : Nat} {d d' : List (Item × Int)} {b : Bool},
      List.Forall₂ Prep lf fs → compareLoop shape i d (lf ++ lo ++ ld) = .ok (some (d', b)) →
      (b = true ∨ shape.length ≤ i + (lf ++ lo ++ ld).length) → b = ell ∧ (Good d → Good d') ∧
        ∀ σ, Agrees σ d' → Agrees σ d ∧ M σ fs os ell (shape.drop i) := by
  intro lf
  induction lf with
  | nil => intro fs i d d' b h hl hlen; cases h; exact loop_opts_sound hld ho hl hlen
  | cons e lf ih =>
    intro fs i d d' b h hl hlen
    cases h with
    | cons he h =>
    obtain ⟨f1, f2⟩ := he.facts
    simp only [List.cons_append, compareLoop, f1, Bool.false_eq_true, if_false, f2, false_and] at hl
    have hlen' : b = true ∨ shape.length ≤ i + 1 + (lf ++ lo ++ ld).length := by
      rcases hlen with h | h
      · exact .inl h
      · right; simp only [List.cons_append, List.length_cons] at h; omega
    split at hl
    · cases hl
    · cases hl
    · rename_i d1 hc
      obtain ⟨v, hv, hg, hs⟩ := checkDim_sound he hc
      obtain ⟨h1, h2, h3⟩ := ih h hl hlen'
      refine ⟨h1, h2 ∘ hg, fun σ ha => ?_⟩
      obtain ⟨ha1, hm⟩ := h3 σ ha
      obtain ⟨ha2, hok⟩ := hs σ ha1
      rw [drop_cons hv]
      exact ⟨ha2, hok, hm⟩

theorem getElem?_of_drop {α : Type} {l : List α} {i : Nat} {v : α} {vs : List α} (h : l.drop i = v :: vs) :
    l[i]? = some v ∧ vs = l.drop (i + 1) := by
  have h1 : l[i]? = some v := by
    rw [← List.head?_drop, h]; rfl
  exact ⟨h1, by rw [drop_cons h1] at h; simpa using h.symm⟩

theorem loop_opts_complete {shape : List Int} {ell : Bool} {ld : List Item} (hld : PrepDots ell ld)
    {σ : List Char → Int} :
    ∀ {lo : List Item} {os : List Dim} {i : Nat} {d : List (Item × Int)},
      List.Forall₂ PrepOpt lo os → Agrees σ d → M σ [] os ell (shape.drop i) →
      ∃ d', compareLoop shape i d (lo ++ ld) = .ok (some (d', ell)) ∧ Agrees σ d' ∧
        (ell = true ∨ shape.length ≤ i + (lo ++ ld).length) := by
  intro lo
  induction lo with
  | nil =>
    intro os i d h ha hm
    cases h
    cases ell with
    | false =>
      have hld : ld = [] := hld
      subst hld
      refine ⟨d, by simp [compareLoop], ha, .inr ?_⟩
      cases hd : shape.drop i with
      | nil => simpa using List.drop_eq_nil_iff.1 hd
      | cons v vs => rw [hd] at hm; simp [M] at hm
    | true =>
      have hld : ld = [.str ['.', '.', '.']] := hld
      subst hld
      have hdd : hasDots (Item.str ['.', '.', '.']).chars = true := by decide
      exact ⟨d, by simp [compareLoop, hdd], ha, .inl rfl⟩
  | cons e lo ih =>
    intro os i d h ha hm
    cases h with
    | cons he h =>
    rename_i o os
    obtain ⟨f1, f2, t, f3, f4, f5⟩ := he.facts
    simp only [List.cons_append, compareLoop, f1, Bool.false_eq_true, if_false, f2, true_and, if_true, f3,
      Option.map_some, List.length_cons]
    cases hd : shape.drop i with
    | nil =>
      have hi : ¬ i < shape.length := by have := List.drop_eq_nil_iff.1 hd; omega
      simp only [hi, not_false_eq_true, if_true]
      obtain ⟨d', h1, h2, h3⟩ := ih (i := i + 1) h ha (by rw [List.drop_eq_nil_of_le (by omega)]; exact M_nil)
      exact ⟨d', h1, h2, by rcases h3 with h3 | h3 <;> [exact .inl h3; (right; omega)]⟩
    | cons v vs =>
      obtain ⟨hv, rfl⟩ := getElem?_of_drop hd
      rw [hd] at hm
      have hi : i < shape.length := by
        by_contra hc; rw [List.getElem?_eq_none (by omega)] at hv; cases hv
      simp only [hi, not_true, if_false]
      obtain ⟨d1, hc, ha1⟩ := checkDim_complete f4 hv ha hm.1
      simp only [hc]
      obtain ⟨d', h1, h2, h3⟩ := ih (i := i + 1) h ha1 hm.2
      exact ⟨d', h1, h2, by rcases h3 with h3 | h3 <;> [exact .inl h3; (right; omega)]⟩

theorem loop_complete {shape : List Int} {ell : Bool} {ld lo : List Item} {os : List Dim}
    (hld : PrepDots ell ld) (ho : List.Forall₂ PrepOpt lo os) {σ : List Char → Int} :
    ∀ {lf : List Item} {fs : List Dim} {i : Nat} {d : List (Item × Int)},
      List.Forall₂ Prep lf fs → Agrees σ d → M σ fs os ell (shape.drop i) →
      ∃ d', compareLoop shape i d (lf ++ lo ++ ld) = .ok (some (d', ell)) ∧ Agrees σ d' ∧
        (ell = true ∨ shape.length ≤ i + (lf ++ lo ++ ld).length) := by
  intro lf
  induction lf with
  | nil => intro fs i d h ha hm; cases h; exact loop_opts_complete hld ho ha hm
  | cons e lf ih =>
    intro fs i d h ha hm
    cases h with
    | cons he h =>
    obtain ⟨f1, f2⟩ := he.facts
    simp only [List.cons_append, compareLoop, f1, Bool.false_eq_true, if_false, f2, false_and, List.length_cons]
    cases hd : shape.drop i with
    | nil => rw [hd] at hm; simp [M] at hm
    | cons v vs =>
      obtain ⟨hv, rfl⟩ := getElem?_of_drop hd
      rw [hd] at hm
      obtain ⟨d1, hc, ha1⟩ := checkDim_complete he hv ha hm.1
      simp only [hc]
      obtain ⟨d', h1, h2, h3⟩ := ih (i := i + 1) h ha1 hm.2
      exact ⟨d', h1, h2, by rcases h3 with h3 | h3 <;> [exact .inl h3; (right; omega)]⟩

theorem compareLists_sound {shape : List Int} {ell : Bool} {lf lo ld : List Item} {fs os : List Dim}
    (hld : PrepDots ell ld) (ho : List.Forall₂ PrepOpt lo os) (hf : List.Forall₂ Prep lf fs)
    {d : List (Item × Int)} (h : compareLists shape (lf ++ lo ++ ld) = .ok (some d)) :
    Good d ∧ ∀ σ, Agrees σ d → M σ fs os ell shape := by
  unfold compareLists at h
  split at h
  · cases h
  · cases h
  · rename_i d' b hl
    split at h
    · cases h
    · rename_i hlen
      simp only [Except.ok.injEq, Option.some.injEq] at h
      subst h
      obtain ⟨h1, h2, h3⟩ := loop_sound hld ho hf hl (by
        cases b
        · right; simp only [Bool.false_eq_true, not_false_eq_true, and_true] at hlen; omega
        · exact .inl rfl)
      exact ⟨h2 Good.nil, fun σ ha => by simpa using (h3 σ ha).2⟩

theorem compareLists_complete {shape : List Int} {ell : Bool} {lf lo ld : List Item} {fs os : List Dim}
    (hld : PrepDots ell ld) (ho : List.Forall₂ PrepOpt lo os) (hf : List.Forall₂ Prep lf fs)
    {σ : List Char → Int} (h : M σ fs os ell shape) :
    ∃ d, compareLists shape (lf ++ lo ++ ld) = .ok (some d) ∧ Agrees σ d := by
  obtain ⟨d, h1, h2, h3⟩ := loop_complete (i := 0) (d := []) hld ho hf Agrees.nil (by simpa using h)
  refine ⟨d, ?_, h2⟩
  unfold compareLists
  simp only [h1]
  rw [if_neg]
  rintro ⟨h4, h5⟩
  rcases h3 with h3 | h3
  · exact h5 h3
  · omega

theorem validateExpected_dots {v : Nat} {ell : Bool} {ld : List Item} (h : PrepDots ell ld) (hv : v < 2) :
    validateExpected v ld = .ok () := by
  cases ell with
  | false => cases (show ld = [] from h); rfl
  | true =>
    cases (show ld = [.str ['.', '.', '.']] from h)
    have hd : hasDots (Item.str ['.', '.', '.']).chars = true := by decide
    have : v ≠ 2 := by omega
    simp [validateExpected, hd, this]

theorem validateExpected_opts {ell : Bool} {ld : List Item} (hld : PrepDots ell ld) :
    ∀ {lo : List Item} {os : List Dim} {v : Nat}, v < 2 → List.Forall₂ PrepOpt lo os →
      validateExpected v (lo ++ ld) = .ok () := by
  intro lo
  induction lo with
  | nil => intro os v hv h; exact validateExpected_dots hld hv
  | cons e lo ih =>
    intro os v hv h
    cases h with
    | cons he h =>
    obtain ⟨f1, f2, t, f3, f4, f5⟩ := he.facts
    have : v ≠ 2 := by omega
    have f6 : isRangeFormatValid t = true := f4.1.format
    simp only [List.cons_append, validateExpected, f1, f2, f3, f5, f6, true_or, not_true, and_false, if_false,
      this, Bool.false_eq_true, if_true, ne_eq, or_self]
    exact ih (by omega) h

theorem validateExpected_all {ell : Bool} {ld lo : List Item} {os : List Dim} (hld : PrepDots ell ld)
    (ho : List.Forall₂ PrepOpt lo os) :
    ∀ {lf : List Item} {fs : List Dim}, List.Forall₂ Prep lf fs →
      validateExpected 0 (lf ++ lo ++ ld) = .ok () := by
  intro lf
  induction lf with
  | nil => intro fs h; exact validateExpected_opts hld (by omega) ho
  | cons e lf ih =>
    intro fs h
    cases h with
    | cons he h =>
    obtain ⟨f1, f2⟩ := he.facts
    simp only [List.cons_append, validateExpected, f1, f2, he.1.format, Nat.zero_ne_one, false_and, if_false,
      Bool.false_eq_true, not_true, OfNat.zero_ne_ofNat]
    exact ih h

/-! ### the recursive form is the documented one -/

theorem M_opts {σ : List Char → Int} {ell : Bool} : ∀ {os : List Dim} {s : List Int}, M σ [] os ell s ↔
    ∃ (k : Nat) (head rest : List Int), s = head ++ rest ∧ List.Forall₂ (Dim.Ok σ) (os.take k) head ∧
      (rest ≠ [] → os.length ≤ k ∧ ell = true) := by
  intro os
  induction os with
  | nil =>
    intro s
    constructor
    · intro h
      refine ⟨0, [], s, rfl, by simp, fun hs => ⟨by simp, ?_⟩⟩
      cases s with
      | nil => exact absurd rfl hs
      | cons v vs => exact h
    · rintro ⟨k, head, rest, rfl, h, h2⟩
      simp only [List.take_nil] at h
      cases h
      cases rest with
      | nil => exact M_nil
      | cons v vs => exact (h2 (by simp)).2
  | cons o os ih =>
    intro s
    cases s with
    | nil => exact ⟨fun _ => ⟨0, [], [], rfl, by simp, fun h => absurd rfl h⟩, fun _ => M_nil⟩
    | cons v vs =>
      constructor
      · rintro ⟨h1, h2⟩
        obtain ⟨k, head, rest, rfl, h3, h4⟩ := ih.1 h2
        exact ⟨k + 1, v :: head, rest, rfl, by simp [h1, h3], fun hr => by have := h4 hr; simp [this]⟩
      · rintro ⟨k, head, rest, h1, h2, h3⟩
        cases k with
        | zero =>
          simp only [List.take_zero] at h2
          cases h2
          simp only [List.nil_append] at h1
          subst h1
          have := (h3 (by simp)).1
          simp at this
        | succ k =>
          simp only [List.take_succ_cons] at h2
          cases h2 with
          | cons h4 h5 =>
          simp only [List.cons_append, List.cons.injEq] at h1
          obtain ⟨rfl, rfl⟩ := h1
          exact ⟨h4, ih.2 ⟨k, _, rest, rfl, h5, fun hr => by have := h3 hr; simpa using this⟩⟩

theorem M_iff {σ : List Char → Int} {ell : Bool} {os : List Dim} : ∀ {fs : List Dim} {s : List Int},
    M σ fs os ell s ↔
    ∃ (k : Nat) (head rest : List Int), s = head ++ rest ∧ List.Forall₂ (Dim.Ok σ) (fs ++ os.take k) head ∧
      (rest ≠ [] → os.length ≤ k ∧ ell = true) := by
  intro fs
  induction fs with
  | nil => intro s; exact M_opts
  | cons f fs ih =>
    intro s
    cases s with
    | nil =>
      simp only [M, false_iff]
      rintro ⟨k, head, rest, h1, h2, h3⟩
      cases h2
      simp at h1
    | cons v vs =>
      constructor
      · rintro ⟨h1, h2⟩
        obtain ⟨k, head, rest, rfl, h3, h4⟩ := ih.1 h2
        exact ⟨k, v :: head, rest, rfl, by simp [h1, h3], h4⟩
      · rintro ⟨k, head, rest, h1, h2, h3⟩
        cases h2 with
        | cons h4 h5 =>
        simp only [List.cons_append, List.cons.injEq] at h1
        obtain ⟨rfl, rfl⟩ := h1
        exact ⟨h4, ih.2 ⟨k, _, rest, rfl, h5, h3⟩⟩

theorem M_front {σ : List Char → Int} {ell : Bool} {fs os : List Dim} {s : List Int} :
    M σ fs.reverse os.reverse ell s.reverse ↔ (⟨true, fs, os, ell⟩ : Pattern).MatchesWith σ s := by
  rw [M_iff]
  simp only [Pattern.MatchesWith, if_true]
  constructor
  · rintro ⟨k, head, rest, h1, h2, h3⟩
    refine ⟨os.length - k, rest.reverse, head.reverse, ?_, ?_, fun hr => ?_⟩
    · rw [← List.reverse_append, ← h1, List.reverse_reverse]
    · rw [← List.forall₂_reverse_iff]
      simpa [List.take_reverse] using h2
    · obtain ⟨h4, h5⟩ := h3 (by simpa using hr)
      simp only [List.length_reverse] at h4
      exact ⟨by omega, h5⟩
  · rintro ⟨j, rest, head, rfl, h2, h3⟩
    refine ⟨os.length - j, head.reverse, rest.reverse, by simp, ?_, fun hr => ?_⟩
    · rw [← List.forall₂_reverse_iff] at h2
      rw [List.take_reverse]
      by_cases hj : j ≤ os.length
      · rw [show os.length - (os.length - j) = j by omega]
        simpa using h2
      · rw [show os.length - j = 0 by omega, Nat.sub_zero, List.drop_length]
        rw [List.drop_eq_nil_of_le (by omega)] at h2
        simpa using h2
    · obtain ⟨h4, h5⟩ := h3 (by simpa using hr)
      simp [h4, h5]

/-! ### preparation -/

theorem WritesDim.blank {s : List Char} {d : Dim} (h : WritesDim s d) : ' ' ∉ s :=
  not_mem_of_chars h.chars.2 (by decide) (by decide)

theorem Writes.prep {e : Item} {d : Dim} (h : Writes e d) : Prep e.strip d := by
  cases h with
  | int n =>
    obtain ⟨h1, h2⟩ := natChars_spec n
    refine ⟨?_, fun x hx => by cases hx⟩
    have : (Item.int n).strip.chars = natChars n := by
      simp [Item.strip, Item.chars]
    rw [this]
    conv => rhs; rw [← h2]
    exact .fixed _ h1
  | str s d h => exact ⟨h, fun x hx => by subst hx; generalize hu : unblank s = u at h; cases h; simp [Item.strip, ← hu, unblank]⟩

theorem WritesOpt.prep {e : Item} {d : Dim} (h : WritesOpt e d) : PrepOpt e.strip d := by
  cases h with
  | mk s t d hs h => exact ⟨t, by simp only [Item.strip]; exact congrArg Item.str hs, h⟩

theorem WritesDots.prep {e : Item} (h : WritesDots e) : e.strip = .str ['.', '.', '.'] := by
  cases h with
  | mk s h => exact congrArg Item.str h

theorem forall₂_map_strip {R : Item → Dim → Prop} {S : Item → Dim → Prop} (hRS : ∀ e d, R e d → S e.strip d) :
    ∀ {l : List Item} {ds : List Dim}, List.Forall₂ R l ds → List.Forall₂ S (l.map Item.strip) ds := by
  intro l ds h
  induction h with
  | nil => exact .nil
  | cons h1 h2 ih => exact .cons (hRS _ _ h1) ih

/-- The prepared lists of a written pattern. -/
theorem prepare_writes {l : List Item} {p : Pattern} (h : WritesPattern l p) (s : List Int) :
    ∃ lf lo ld, List.Forall₂ Prep lf (if p.front then p.fixed.reverse else p.fixed) ∧
      List.Forall₂ PrepOpt lo (if p.front then p.opts.reverse else p.opts) ∧ PrepDots p.ellipsis ld ∧
      prepare s l = .ok (if p.front then s.reverse else s, lf ++ lo ++ ld) := by
  obtain ⟨fr, fs, os, ell⟩ := p
  obtain ⟨lf, lo, ld, h1, h2, h3, h4⟩ := h
  dsimp only at h1 h2 h3 h4 ⊢
  have p1 := forall₂_map_strip (fun _ _ => Writes.prep) h1
  have p2 := forall₂_map_strip (fun _ _ => WritesOpt.prep) h2
  have p3 : PrepDots ell (ld.map Item.strip) := by
    unfold PrepDots
    cases ell with
    | false => simp only [Bool.false_eq_true, if_false] at h3 ⊢; simp [h3]
    | true =>
      simp only [if_true] at h3 ⊢
      obtain ⟨x, hx, rfl⟩ := h3
      simp [hx.prep]
  cases hfr : fr with
  | false =>
    simp only [hfr, Bool.false_eq_true, if_false] at h4 ⊢
    obtain ⟨rfl, hne⟩ := h4
    refine ⟨lf.map Item.strip, lo.map Item.strip, ld.map Item.strip, p1, p2, p3, ?_⟩
    cases lf with
    | nil => cases h1; exact absurd rfl hne
    | cons e lf =>
      cases h1 with
      | cons he _ =>
      have := he.prep.facts
      simp [prepare, this]
  | true =>
    simp only [hfr, if_true] at h4 ⊢
    obtain ⟨rfl, hne⟩ := h4
    refine ⟨(lf.map Item.strip).reverse, (lo.map Item.strip).reverse, (ld.map Item.strip).reverse,
      List.forall₂_reverse_iff.2 p1, List.forall₂_reverse_iff.2 p2, ?_, ?_⟩
    · unfold PrepDots at p3 ⊢
      cases he : ell <;> simp only [he, Bool.false_eq_true, if_false, if_true] at p3 ⊢ <;> rw [p3] <;> rfl
    · have hdd : hasDots (Item.str ['.', '.', '.']).chars = true := by decide
      cases hee : ell with
      | true =>
        simp only [hee, if_true] at h3
        obtain ⟨x, hx, rfl⟩ := h3
        simp [prepare, hx.prep, hdd]
      | false =>
        simp only [hee, Bool.false_eq_true, if_false, false_or] at h3 hne
        subst h3
        cases lo with
        | nil => cases h2; exact absurd rfl hne
        | cons e lo =>
          cases h2 with
          | cons he _ =>
          obtain ⟨_, h5, _⟩ := he.prep.facts
          simp [prepare, h5]

theorem matchesWith_iff {p : Pattern} {σ : List Char → Int} {s : List Int} :
    M σ (if p.front then p.fixed.reverse else p.fixed) (if p.front then p.opts.reverse else p.opts) p.ellipsis
      (if p.front then s.reverse else s) ↔ p.MatchesWith σ s := by
  obtain ⟨fr, fs, os, ell⟩ := p
  cases fr with
  | false => simp only [Bool.false_eq_true, if_false, Pattern.MatchesWith]; exact M_iff
  | true => exact M_front

/-- The validator on a written pattern: acceptance with a dictionary means that all shapes match for all
values of the variables that agree with it, -/
theorem validateShape_sound {l : List Item} {p : Pattern} (h : WritesPattern l p) {s : List Int}
    {d : List (Item × Int)} (hd : validateShape s l = .ok d) :
    Good d ∧ ∀ σ, Agrees σ d → p.MatchesWith σ s := by
  obtain ⟨lf, lo, ld, h1, h2, h3, h4⟩ := prepare_writes h s
  unfold validateShape at hd
  simp only [h4, bind, Except.bind, validateExpected_all h3 h2 h1] at hd
  cases hc : compareLists (if p.front then s.reverse else s) (lf ++ lo ++ ld) with
  | error x => rw [hc] at hd; cases hd
  | ok o =>
    rw [hc] at hd
    cases o with
    | none => cases hd
    | some d' =>
      cases hd
      obtain ⟨h5, h6⟩ := compareLists_sound h3 h2 h1 hc
      exact ⟨h5, fun σ ha => matchesWith_iff.1 (h6 σ ha)⟩

/-- and a matching shape is accepted. -/
theorem validateShape_complete {l : List Item} {p : Pattern} (h : WritesPattern l p) {s : List Int}
    {σ : List Char → Int} (hm : p.MatchesWith σ s) :
    ∃ d, validateShape s l = .ok d ∧ Agrees σ d := by
  obtain ⟨lf, lo, ld, h1, h2, h3, h4⟩ := prepare_writes h s
  obtain ⟨d, hd, ha⟩ := compareLists_complete h3 h2 h1 (matchesWith_iff.2 hm)
  refine ⟨d, ?_, ha⟩
  unfold validateShape
  simp only [h4, bind, Except.bind, validateExpected_all h3 h2 h1, hd]

end Weldx.Val
