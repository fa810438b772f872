import Verif.Version.Tags

/-!
# Tags, converters, processes and registered standards: statements (C90)
-/

namespace Weldx.Tag

/-! ## Specification -/

/-- what an element of a pattern stands for -/
def Fits : Part → List Char → Prop
  | .chr c, w => w = [c]
  | .one, w => '/' ∉ w
  | .any, w => '\n' ∉ w

/-- the text consists of pieces that fit the elements of the pattern -/
def Describes (p : List Part) (u : List Char) : Prop := ∃ w : List (List Char), List.Forall₂ Fits p w ∧ w.flatten = u

/-- a tag of the given name: any version `0.1.…` -/
def Named (n u : List Char) : Prop := ∃ s, '/' ∉ s ∧ u = formatTag n ("0.1.".toList ++ s)

/-! ## Patterns -/

theorem star_iff {ok : Char → Bool} {k : List Char → Bool} {u : List Char} :
    star ok k u = true ↔ ∃ a b, (∀ c ∈ a, ok c = true) ∧ u = a ++ b ∧ k b = true := by
  induction u with
  | nil =>
    constructor
    · intro h
      exact ⟨[], [], by simp, rfl, h⟩
    · rintro ⟨a, b, -, h, hk⟩
      have : a = [] ∧ b = [] := by simpa using h.symm
      rw [this.2] at hk
      exact hk
  | cons d t ih =>
    simp only [star, Bool.or_eq_true, Bool.and_eq_true, ih]
    constructor
    · rintro (h | ⟨hd, a, b, ha, rfl, hk⟩)
      · exact ⟨[], _, by simp, rfl, h⟩
      · refine ⟨d :: a, b, ?_, rfl, hk⟩
        intro c hc
        rcases List.mem_cons.1 hc with rfl | hc
        · exact hd
        · exact ha c hc
    · rintro ⟨a, b, ha, h, hk⟩
      cases a with
      | nil => exact .inl (by rw [h]; exact hk)
      | cons e a =>
        obtain ⟨rfl, rfl⟩ : d = e ∧ t = a ++ b := by simpa using h
        exact .inr ⟨ha d (by simp), a, b, fun c hc => ha c (by simp [hc]), rfl, hk⟩

theorem describes_cons {x : Part} {p : List Part} {u : List Char} :
    Describes (x :: p) u ↔ ∃ a b, Fits x a ∧ u = a ++ b ∧ Describes p b := by
  constructor
  · rintro ⟨w, hw, rfl⟩
    cases hw with
    | cons h ht => exact ⟨_, _, h, rfl, _, ht, rfl⟩
  · rintro ⟨a, b, h, rfl, w, hw, rfl⟩
    exact ⟨a :: w, .cons h hw, rfl⟩

theorem full_iff {p : List Part} {u : List Char} : full p u = true ↔ Describes p u := by
  induction p generalizing u with
  | nil =>
    constructor
    · intro h
      exact ⟨[], .nil, by simpa [full] using (List.isEmpty_iff.1 h).symm⟩
    · rintro ⟨w, hw, rfl⟩
      cases hw
      rfl
  | cons x p ih =>
    rw [describes_cons]
    cases x with
    | chr c =>
      cases u with
      | nil => simp [full, single, Fits]
      | cons d t =>
        simp only [full, single, Bool.and_eq_true, beq_iff_eq, ih, Fits]
        constructor
        · rintro ⟨rfl, h⟩
          exact ⟨_, _, rfl, rfl, h⟩
        · rintro ⟨a, b, rfl, h, hd⟩
          obtain ⟨rfl, rfl⟩ : d = c ∧ t = b := by simpa using h
          exact ⟨rfl, hd⟩
    | one =>
      simp only [full, star_iff, ih, Fits]
      refine exists_congr fun a => exists_congr fun b => and_congr_left fun _ => ?_
      constructor
      · intro h hc
        simpa using h _ hc
      · intro h c hc
        simp only [bne_iff_ne]
        rintro rfl
        exact h hc
    | any =>
      simp only [full, star_iff, ih, Fits]
      refine exists_congr fun a => exists_congr fun b => and_congr_left fun _ => ?_
      constructor
      · intro h hc
        simpa using h _ hc
      · intro h c hc
        simp only [bne_iff_ne]
        rintro rfl
        exact h hc

theorem parse_cons {c : Char} {t : List Char} (hc : c ≠ '*') : parse (c :: t) = .chr c :: parse t := by
  cases t <;> simp [parse, hc]

theorem parse_append {l t : List Char} (hl : '*' ∉ l) : parse (l ++ t) = l.map .chr ++ parse t := by
  induction l with
  | nil => rfl
  | cons c l ih =>
    simp only [List.mem_cons, not_or] at hl
    rw [List.cons_append, parse_cons (Ne.symm hl.1), ih hl.2]
    rfl

theorem describes_text {l : List Char} {p : List Part} {u : List Char} :
    Describes (l.map .chr ++ p) u ↔ ∃ v, u = l ++ v ∧ Describes p v := by
  induction l generalizing u with
  | nil => simp
  | cons c l ih =>
    rw [List.map_cons, List.cons_append, describes_cons]
    constructor
    · rintro ⟨a, b, rfl, rfl, hb⟩
      obtain ⟨v, rfl, hv⟩ := ih.1 hb
      exact ⟨v, rfl, hv⟩
    · rintro ⟨v, rfl, hv⟩
      exact ⟨[c], l ++ v, rfl, rfl, ih.2 ⟨v, rfl, hv⟩⟩

theorem describes_nil {u : List Char} : Describes [] u ↔ u = [] := by
  constructor
  · rintro ⟨w, hw, rfl⟩
    cases hw
    rfl
  · rintro rfl
    exact ⟨[], .nil, rfl⟩

/-- **C90, patterns.** A tag matches a pattern exactly if it consists of the text of the pattern, with any text without `/` in place of
`*` and any text without line break in place of `**`. -/
theorem C90_pattern (p u : List Char) : asdfMatch p u = true ↔ Describes (parse p) u := by
  unfold asdfMatch
  split
  · exact full_iff
  · rename_i h
    rw [beq_iff_eq]
    have := parse_append (l := p) (t := []) h
    rw [List.append_nil] at this
    rw [this, describes_text]
    simp [parse, describes_nil, eq_comm]

theorem describes_one {u : List Char} : Describes [.one] u ↔ '/' ∉ u := by
  rw [describes_cons]
  constructor
  · rintro ⟨a, b, h, rfl, hb⟩
    rw [describes_nil.1 hb, List.append_nil]
    exact h
  · intro h
    exact ⟨u, [], h, by simp, describes_nil.2 rfl⟩

/-- a text followed by one `*` -/
theorem match_prefix {l u : List Char} (hl : '*' ∉ l) : asdfMatch (l ++ ['*']) u = true ↔ ∃ v, '/' ∉ v ∧ u = l ++ v := by
  rw [C90_pattern, parse_append hl, describes_text]
  simp only [parse, if_true, describes_one]
  exact exists_congr fun v => and_comm

/-- **C90, two stars** stand for any text without line break, also with slashes. -/
theorem C90_two_stars {l r u : List Char} (hl : '*' ∉ l) (hr : '*' ∉ r) :
    asdfMatch (l ++ '*' :: '*' :: r) u = true ↔ ∃ v, '\n' ∉ v ∧ u = l ++ v ++ r := by
  have h1 : parse ('*' :: '*' :: r) = .any :: parse r := by rw [parse, if_pos rfl, if_pos rfl]
  have h2 := parse_append (l := r) (t := []) hr
  rw [List.append_nil, parse] at h2
  rw [C90_pattern, parse_append hl, describes_text, h1, h2]
  constructor
  · rintro ⟨w, rfl, hw⟩
    obtain ⟨a, b, ha, rfl, hb⟩ := describes_cons.1 hw
    obtain ⟨v, rfl, hv⟩ := describes_text.1 hb
    rw [describes_nil.1 hv, List.append_nil]
    exact ⟨a, ha, by rw [List.append_assoc]⟩
  · rintro ⟨v, hv, rfl⟩
    exact ⟨v ++ r, by rw [List.append_assoc],
      describes_cons.2 ⟨v, r, hv, rfl, describes_text.2 ⟨[], by rw [List.append_nil], describes_nil.2 rfl⟩⟩⟩

/-- one star does not stand for a slash, two do -/
example : asdfMatch "a**c".toList "ab/bc".toList = true ∧ asdfMatch "a*c".toList "ab/bc".toList = false := by
  refine ⟨(C90_two_stars (l := ['a']) (r := ['c']) (by decide) (by decide)).2 ⟨['b', '/', 'b'], by decide, by decide⟩, by decide +kernel⟩

/-- **C90, named.** The tags of a converter with a name are those of this name in any version `0.1.…`. -/
theorem C90_named {n u : List Char} (hn : '*' ∉ n) : asdfMatch (formatTag n anyVersion) u = true ↔ Named n u := by
  have he : formatTag n anyVersion = (formatTag n "0.1.".toList) ++ ['*'] := by
    have : anyVersion = "0.1.".toList ++ ['*'] := by decide +kernel
    rw [formatTag, this, formatTag]
    simp
  have hs : '*' ∉ formatTag n "0.1.".toList := by
    intro h
    rw [formatTag, List.append_assoc, List.mem_append, List.mem_append] at h
    rcases h with h | h | h
    · exact absurd h (by decide +kernel)
    · exact hn h
    · exact absurd h (by decide +kernel)
  rw [he, match_prefix hs]
  refine exists_congr fun v => and_congr_right fun _ => ?_
  simp [formatTag]

/-- **C90, format.** The name and the version of a formatted tag can be read from it. -/
theorem C90_format {n v : List Char} (hv : '-' ∉ v) : Ver.rpartition (formatTag n v) = (tagBase ++ n, v) := by
  unfold Ver.rpartition formatTag
  rw [Ver.rpart?_append hv]
  rfl

theorem dash_inj {n m x y : List Char} (hn : '-' ∉ n) (hm : '-' ∉ m) (h : n ++ '-' :: x = m ++ '-' :: y) : n = m ∧ x = y := by
  induction n generalizing m with
  | nil =>
    cases m with
    | nil => simpa using h
    | cons d m =>
      simp only [List.nil_append, List.cons_append, List.cons.injEq] at h
      exact absurd (by rw [← h.1]; simp) hm
  | cons c n ih =>
    cases m with
    | nil =>
      simp only [List.nil_append, List.cons_append, List.cons.injEq] at h
      exact absurd (by rw [h.1]; simp) hn
    | cons d m =>
      simp only [List.cons_append, List.cons.injEq] at h
      simp only [List.mem_cons, not_or] at hn hm
      obtain ⟨rfl, rfl⟩ := ih hn.2 hm.2 h.2
      exact ⟨by rw [h.1], rfl⟩

/-- **C90, disjoint.** A tag has only one name, as names do not contain a minus sign. -/
theorem C90_disjoint {n m u : List Char} (hn : '-' ∉ n) (hm : '-' ∉ m) (h1 : Named n u) (h2 : Named m u) : n = m := by
  obtain ⟨s, -, rfl⟩ := h1
  obtain ⟨t, -, h⟩ := h2
  unfold formatTag at h
  rw [List.append_assoc, List.append_assoc, List.append_cancel_left_eq] at h
  exact (dash_inj hn hm h).1

/-! ## Converters -/

/-- a converter lists a pattern for the tag -/
def Handles (c : Cls) (u : List Char) : Prop := ∃ ps, c.tags = some ps ∧ ∃ p ∈ ps, Describes (parse p) u

theorem uriMatch_iff {ps : List (List Char)} {u : List Char} : uriMatch ps u = true ↔ ∃ p ∈ ps, Describes (parse p) u := by
  simp [uriMatch, C90_pattern]

theorem handles_iff {c : Cls} {u : List Char} (hc : c.tags ≠ none) : uriMatch (c.tags.getD []) u = true ↔ Handles c u := by
  rw [uriMatch_iff, Handles]
  cases h : c.tags with
  | none => exact absurd h hc
  | some ps => simp

/-- **C90, converter.** The converter of a tag is the first class that derives directly from `WeldxConverter` and lists a pattern for it,
and there is a warning exactly if there are several. If one such class has no tags, the search fails. -/
theorem C90_converter (reg : List Cls) (u : List Char) :
    (getConverter reg u = .error .typeError ↔ ∃ c ∈ reg, c.direct = true ∧ c.tags = none) ∧
    ∀ r w, getConverter reg u = .ok (r, w) →
      (∀ c, r = some c ↔ ∃ a b, reg = a ++ c :: b ∧ c.direct = true ∧ Handles c u ∧ ∀ d ∈ a, d.direct = true → ¬ Handles d u) ∧
      (w = true ↔ ∃ a b e c d, reg = a ++ c :: b ++ d :: e ∧ c.direct = true ∧ d.direct = true ∧ Handles c u ∧ Handles d u) := by
  have hsub : (∃ c ∈ subclasses reg, c.tags = none) ↔ ∃ c ∈ reg, c.direct = true ∧ c.tags = none := by
    simp [subclasses, and_assoc]
  unfold getConverter
  by_cases he : ∃ c ∈ subclasses reg, c.tags = none
  · rw [if_pos he]
    exact ⟨by simpa using hsub.1 he, by intro r w h; cases h⟩
  · rw [if_neg he]
    refine ⟨?_, ?_⟩
    · constructor
      · intro h; cases h
      · intro h; exact absurd (hsub.2 h) he
    · intro r w h
      have ht : ∀ c ∈ reg, c.direct = true → c.tags ≠ none := fun c hc hd h0 => he (hsub.2 ⟨c, hc, hd, h0⟩)
      have hf : (subclasses reg).filter (fun c => uriMatch (c.tags.getD []) u) =
          reg.filter (fun c => uriMatch (c.tags.getD []) u && c.direct) := by
        rw [subclasses, List.filter_filter]
      simp only [hf, Except.ok.injEq, Prod.mk.injEq] at h
      obtain ⟨rfl, rfl⟩ := h
      have hq : ∀ c ∈ reg, (uriMatch (c.tags.getD []) u && c.direct) = true ↔ c.direct = true ∧ Handles c u := by
        intro c hc
        rw [Bool.and_eq_true, and_comm]
        exact and_congr_right fun hd => handles_iff (ht c hc hd)
      generalize hp : (fun c : Cls => uriMatch (c.tags.getD []) u && c.direct) = p
      have hq' : ∀ c ∈ reg, p c = true ↔ c.direct = true ∧ Handles c u := by
        intro c hc
        rw [← hp]
        exact hq c hc
      clear hq hp hf hsub he ht
      constructor
      · intro c
        induction reg with
        | nil => simp
        | cons d t ih =>
          have hd := hq' d (by simp)
          have iht := ih fun c hc => hq' c (by simp [hc])
          cases hpd : p d with
          | true =>
            rw [List.filter_cons_of_pos hpd]
            simp only [List.head?_cons, Option.some.injEq]
            constructor
            · rintro rfl
              exact ⟨[], t, rfl, (hd.1 hpd).1, (hd.1 hpd).2, by simp⟩
            · rintro ⟨a, b, h, hc, hh, ha⟩
              cases a with
              | nil => simpa using (List.cons.inj h).1
              | cons e a =>
                obtain ⟨rfl, -⟩ := List.cons.inj h
                exact absurd (hd.1 hpd).2 (ha _ (by simp) (hd.1 hpd).1)
          | false =>
            rw [List.filter_cons_of_neg (by simp [hpd]), iht]
            constructor
            · rintro ⟨a, b, rfl, hc, hh, ha⟩
              refine ⟨d :: a, b, rfl, hc, hh, ?_⟩
              intro e he hde
              rcases List.mem_cons.1 he with rfl | he
              · intro hx
                have := hd.2 ⟨hde, hx⟩
                rw [hpd] at this
                cases this
              · exact ha e he hde
            · rintro ⟨a, b, h, hc, hh, ha⟩
              cases a with
              | nil =>
                obtain ⟨rfl, -⟩ := List.cons.inj h
                have := hd.2 ⟨hc, hh⟩
                rw [hpd] at this
                cases this
              | cons e a =>
                obtain ⟨rfl, rfl⟩ := List.cons.inj h
                exact ⟨a, b, rfl, hc, hh, fun x hx => ha x (by simp [hx])⟩
      · rw [decide_eq_true_iff]
        constructor
        · intro h
          match hm : reg.filter p with
          | [] => simp [hm] at h
          | [x] => simp [hm] at h
          | x :: y :: z =>
            rw [List.filter_eq_cons_iff] at hm
            obtain ⟨a, b, hab, -, hx, hb⟩ := hm
            rw [List.filter_eq_cons_iff] at hb
            obtain ⟨a', b', hab', -, hy, -⟩ := hb
            subst hab'
            have hreg : reg = a ++ x :: a' ++ y :: b' := by rw [hab]; simp
            have h1 := (hq' x (by rw [hreg]; simp)).1 hx
            have h2 := (hq' y (by rw [hreg]; simp)).1 hy
            exact ⟨a, a', b', x, y, hreg, h1.1, h2.1, h1.2, h2.2⟩
        · rintro ⟨a, b, e, c, d, hreg, hc, hd, h1, h2⟩
          have hpc := (hq' c (by rw [hreg]; simp)).2 ⟨hc, h1⟩
          have hpd := (hq' d (by rw [hreg]; simp)).2 ⟨hd, h2⟩
          rw [hreg, List.filter_append, List.filter_append, List.filter_cons_of_pos hpc, List.filter_cons_of_pos hpd]
          simp only [List.length_append, List.length_cons]
          omega

/-- **C90, one converter.** If exactly one class handles a tag, it is found without warning. -/
theorem C90_unique {reg : List Cls} {c : Cls} {u : List Char} (hc : c ∈ reg) (hd : c.direct = true) (hh : Handles c u)
    (ht : ∀ d ∈ reg, d.direct = true → d.tags ≠ none) (hn : reg.Nodup)
    (hu : ∀ d ∈ reg, d.direct = true → Handles d u → d = c) : getConverter reg u = .ok (some c, false) := by
  obtain ⟨h1, h2⟩ := C90_converter reg u
  cases hg : getConverter reg u with
  | error e =>
    have : e = .typeError := by
      unfold getConverter at hg
      split at hg
      · cases hg; rfl
      · cases hg
    rw [this] at hg
    obtain ⟨d, hd1, hd2, hd3⟩ := h1.1 hg
    exact absurd hd3 (ht d hd1 hd2)
  | ok p =>
    obtain ⟨r, w⟩ := p
    obtain ⟨hr, hw⟩ := h2 r w hg
    obtain ⟨a, b, rfl⟩ := List.append_of_mem hc
    have hr' : r = some c := by
      rw [hr]
      refine ⟨a, b, rfl, hd, hh, ?_⟩
      intro d hda hdd hdh
      have := hu d (by simp [hda]) hdd hdh
      subst this
      rw [List.nodup_append] at hn
      exact hn.2.2 d hda d (by simp) rfl
    have hw' : w = false := by
      cases w with
      | false => rfl
      | true =>
        obtain ⟨x, y, z, c', d', hreg, hc', hd', h1', h2'⟩ := hw.1 rfl
        have e1 := hu c' (by rw [hreg]; simp) hc' h1'
        have e2 := hu d' (by rw [hreg]; simp) hd' h2'
        rw [hreg, e1, e2] at hn
        rw [List.nodup_append] at hn
        exact absurd rfl (hn.2.2 c (by simp) c (by simp))
    rw [hr', hw']

/-- **C90, classes.** A class with a name (its own or an inherited one) has the tags of this name, others have the tags that are listed. -/
theorem C90_class (base : Cls) (name : Option (List Char)) (tags : Option (List (List Char))) :
    (∀ n, name.or base.name = some n → n ≠ [] → (newClass base name tags).tags = some [formatTag n anyVersion]) ∧
    (name.or base.name = none → (newClass base name tags).tags = tags.or base.tags) ∧
    ((newClass base name tags).direct = true ↔ base = weldxConverter) := by
  refine ⟨?_, ?_, by simp [newClass]⟩
  · intro n h hn
    cases n with
    | nil => exact absurd rfl hn
    | cons c n => simp [newClass, h]
  · intro h
    simp [newClass, h]

/-- **C90, refuted.** A class that lists tags and has a name does not get the listed tags. -/
theorem C90_name_counterexample : ∃ (name : List Char) (tag : List Char),
    let c := newClass weldxConverter (some name) (some [tag])
    ¬ Handles c tag ∧ getConverter [c] tag = .ok (none, false) := by
  refine ⟨"core/a".toList, "asdf://weldx.bam.de/weldx/tags/core/b-0.1.0".toList, ?_, by decide +kernel⟩
  rw [← handles_iff (by decide +kernel)]
  decide +kernel

/-- **C90, refuted.** A converter that derives from another converter is not found. -/
theorem C90_derived_counterexample : ∃ (base : Cls) (tag : List Char),
    base.direct = true ∧ Handles (newClass base none (some [tag])) tag ∧
      getConverter [base, newClass base none (some [tag])] tag = .ok (none, false) := by
  refine ⟨newClass weldxConverter none (some ["asdf://weldx.bam.de/weldx/tags/core/a-0.1.*".toList]),
    "asdf://weldx.bam.de/weldx/tags/core/b-0.1.0".toList, by decide +kernel, ?_, by decide +kernel⟩
  rw [← handles_iff (by decide +kernel)]
  decide +kernel

/-! ## The converters of weldx -/

theorem table_names : ∀ r ∈ table, ∀ n ∈ r.names, '-' ∉ n.toList ∧ '*' ∉ n.toList := by decide +kernel

theorem table_unique : ∀ r ∈ table, ∀ r' ∈ table, ∀ n ∈ r.names, n ∈ r'.names → r = r' := by decide +kernel

theorem table_extra : ∀ r ∈ table, ∀ p ∈ r.extra,
    (p = stsci ∧ "units/quantity" ∈ r.names) ∨ (p = glob ∧ "groove/iso_9692_1_2013_12/VGroove" ∈ r.names) := by
  decide +kernel

theorem table_grooves : ∀ r ∈ table, ∀ n ∈ r.names, grooveBase.isPrefixOf n.toList = true →
    "groove/iso_9692_1_2013_12/VGroove" ∈ r.names := by decide +kernel

theorem weldx_nodup : weldx.Nodup := by decide +kernel

/-- what the additional patterns stand for -/
theorem stsci_iff {u : List Char} : Describes (parse stsci.toList) u ↔ ∃ s, '/' ∉ s ∧ u = "tag:stsci.edu:asdf/unit/quantity-1.".toList ++ s := by
  rw [← C90_pattern]
  have : stsci.toList = "tag:stsci.edu:asdf/unit/quantity-1.".toList ++ ['*'] := by decide +kernel
  rw [this, match_prefix (by decide +kernel)]

theorem glob_iff {u : List Char} : Describes (parse glob.toList) u ↔
    ∃ a s, '/' ∉ a ∧ '/' ∉ s ∧ u = formatTag (grooveBase ++ a ++ "Groove".toList) ("0.1.".toList ++ s) := by
  have h1 : glob.toList = (tagBase ++ grooveBase) ++ '*' :: ("Groove-0.1.".toList ++ ['*']) := by decide +kernel
  have h2 : parse ('*' :: ("Groove-0.1.".toList ++ ['*'])) = .one :: (("Groove-0.1.".toList).map .chr ++ [.one]) := by decide +kernel
  have h3 : "Groove-0.1.".toList = "Groove".toList ++ '-' :: "0.1.".toList := by decide +kernel
  rw [h1, parse_append (by decide +kernel), describes_text, h2]
  simp only [describes_cons (x := .one), describes_text, describes_nil, Fits, h3]
  constructor
  · rintro ⟨v, rfl, a, b, ha, rfl, w, rfl, x, y, hx, rfl, rfl⟩
    exact ⟨a, x, ha, hx, by simp [formatTag]⟩
  · rintro ⟨a, s, ha, hs, rfl⟩
    exact ⟨a ++ ("Groove".toList ++ '-' :: "0.1.".toList ++ s), by simp [formatTag], a, _, ha, rfl, s, rfl, s, [], hs, by simp, rfl⟩

theorem row_handles {r : Row} {u : List Char} (hr : r ∈ table) :
    Handles r.cls u ↔ (∃ n ∈ r.names, Named n.toList u) ∨ ∃ p ∈ r.extra, Describes (parse p.toList) u := by
  unfold Handles Row.cls
  simp only [Option.some.injEq, exists_eq_left', List.mem_append, List.mem_map]
  constructor
  · rintro ⟨p, ⟨n, hn, rfl⟩ | ⟨q, hq, rfl⟩, h⟩
    · exact .inl ⟨n, hn, (C90_named (table_names r hr n hn).2).1 ((C90_pattern _ _).2 h)⟩
    · exact .inr ⟨q, hq, h⟩
  · rintro (⟨n, hn, h⟩ | ⟨q, hq, h⟩)
    · exact ⟨_, .inl ⟨n, hn, rfl⟩, (C90_pattern _ _).1 ((C90_named (table_names r hr n hn).2).2 h)⟩
    · exact ⟨_, .inr ⟨q, hq, rfl⟩, h⟩

/-- a tag with a name without minus sign that fits the pattern of the grooves is a groove -/
theorem glob_named {n u : List Char} (hn : '-' ∉ n) (h : Named n u) (hg : Describes (parse glob.toList) u) : grooveBase <+: n := by
  obtain ⟨s, -, rfl⟩ := h
  obtain ⟨a, t, -, -, h⟩ := glob_iff.1 hg
  unfold formatTag at h
  simp only [List.append_assoc, List.append_cancel_left_eq] at h
  have hb : '-' ∉ grooveBase := by decide +kernel
  have key : ∀ (b n x y : List Char), '-' ∉ n → '-' ∉ b → n ++ '-' :: x = b ++ y → b <+: n := by
    intro b
    induction b with
    | nil => intro n x y _ _ _; exact List.nil_prefix
    | cons c b ih =>
      intro n x y hn hb h
      simp only [List.mem_cons, not_or] at hb
      cases n with
      | nil => exact absurd (List.cons.inj h).1 hb.1
      | cons d n =>
        simp only [List.mem_cons, not_or] at hn
        obtain ⟨rfl, h'⟩ := List.cons.inj h
        obtain ⟨z, rfl⟩ := ih n x y hn.2 hb.2 h'
        exact ⟨z, rfl⟩
  exact key _ _ _ _ hn hb h

theorem stsci_named {n u : List Char} (h : Named n u) : ¬ Describes (parse stsci.toList) u := by
  intro hs
  obtain ⟨s, -, rfl⟩ := h
  obtain ⟨t, -, h⟩ := stsci_iff.1 hs
  have h1 : formatTag n ("0.1.".toList ++ s) = 'a' :: ("sdf://weldx.bam.de/weldx/tags/".toList ++ n ++ '-' :: ("0.1.".toList ++ s)) := by
    have : tagBase = 'a' :: "sdf://weldx.bam.de/weldx/tags/".toList := by decide +kernel
    rw [formatTag, this]
    rfl
  have h2 : "tag:stsci.edu:asdf/unit/quantity-1.".toList = 't' :: "ag:stsci.edu:asdf/unit/quantity-1.".toList := by decide +kernel
  rw [h1, h2, List.cons_append, List.cons.injEq] at h
  exact absurd h.1 (by decide)

/-- **C90, weldx.** Every tag `…/tags/<name>-0.1.<anything>` with the name of a type of weldx is handled by the converter of this type and by
no other one. -/
theorem C90_weldx {r : Row} (hr : r ∈ table) {n : String} (hn : n ∈ r.names) {u : List Char} (hu : Named n.toList u) :
    getConverter weldx u = .ok (some r.cls, false) := by
  refine C90_unique (List.mem_map_of_mem hr) rfl ((row_handles hr).2 (.inl ⟨n, hn, hu⟩)) ?_ weldx_nodup ?_
  · intro d hd _
    obtain ⟨r', -, rfl⟩ := List.mem_map.1 hd
    simp [Row.cls]
  · intro d hd _ hh
    obtain ⟨r', hr', rfl⟩ := List.mem_map.1 hd
    rcases (row_handles hr').1 hh with ⟨m, hm, hmu⟩ | ⟨p, hp, hpu⟩
    · have := C90_disjoint (table_names r hr n hn).1 (table_names r' hr' m hm).1 hu hmu
      have hnm : n = m := String.toList_inj.1 this
      rw [table_unique r hr r' hr' n hn (hnm ▸ hm)]
    · rcases table_extra r' hr' p hp with ⟨rfl, -⟩ | ⟨rfl, hg⟩
      · exact absurd hpu (stsci_named hu)
      · have hpre := glob_named (table_names r hr n hn).1 hu hpu
        have := table_grooves r hr n hn (List.isPrefixOf_iff_prefix.2 hpre)
        rw [table_unique r hr r' hr' _ this hg]

/-- **C90, unknown.** Other tags have no converter, except quantities of asdf and grooves of any name. -/
theorem C90_unknown (u : List Char) : getConverter weldx u = .ok (none, false) ↔
    (∀ r ∈ table, ∀ n ∈ r.names, ¬ Named n.toList u) ∧
    (∀ s, '/' ∉ s → u ≠ "tag:stsci.edu:asdf/unit/quantity-1.".toList ++ s) ∧
    (∀ a s, '/' ∉ a → '/' ∉ s → u ≠ formatTag (grooveBase ++ a ++ "Groove".toList) ("0.1.".toList ++ s)) := by
  have hall : ∀ c ∈ weldx, c.direct = true ∧ c.tags ≠ none := by
    intro d hd
    obtain ⟨r', -, rfl⟩ := List.mem_map.1 hd
    simp [Row.cls]
  have hnone : getConverter weldx u = .ok (none, false) ↔ ∀ c ∈ weldx, ¬ Handles c u := by
    obtain ⟨h1, h2⟩ := C90_converter weldx u
    constructor
    · intro h c hc hh
      obtain ⟨hr, -⟩ := h2 _ _ h
      have hex : ∃ c a b, weldx = a ++ c :: b ∧ c.direct = true ∧ Handles c u ∧ ∀ d ∈ a, d.direct = true → ¬ Handles d u := by
        classical
        have : ∀ l : List Cls, (∃ c ∈ l, c.direct = true ∧ Handles c u) →
            ∃ c a b, l = a ++ c :: b ∧ c.direct = true ∧ Handles c u ∧ ∀ d ∈ a, d.direct = true → ¬ Handles d u := by
          intro l
          induction l with
          | nil => rintro ⟨c, hc, -⟩; cases hc
          | cons x l ih =>
            intro h
            by_cases hx : x.direct = true ∧ Handles x u
            · exact ⟨x, [], l, rfl, hx.1, hx.2, by simp⟩
            · obtain ⟨c, hc, hcc⟩ := h
              rcases List.mem_cons.1 hc with rfl | hc
              · exact absurd hcc hx
              · obtain ⟨c', a, b, rfl, h1, h2, h3⟩ := ih ⟨c, hc, hcc⟩
                refine ⟨c', x :: a, b, rfl, h1, h2, ?_⟩
                intro d hd hdd hdh
                rcases List.mem_cons.1 hd with rfl | hd
                · exact hx ⟨hdd, hdh⟩
                · exact h3 d hd hdd hdh
        exact this weldx ⟨c, hc, (hall c hc).1, hh⟩
      obtain ⟨c', hc'⟩ := hex
      exact absurd ((hr c').2 hc') (by simp)
    · intro h
      unfold getConverter
      rw [if_neg]
      · have : (subclasses weldx).filter (fun c => uriMatch (c.tags.getD []) u) = [] := by
          rw [List.filter_eq_nil_iff]
          intro c hc
          rw [handles_iff (hall c (List.mem_filter.1 hc).1).2]
          exact h c (List.mem_filter.1 hc).1
        simp [this]
      · rintro ⟨c, hc, h0⟩
        exact (hall c (List.mem_filter.1 hc).1).2 h0
  rw [hnone]
  have hq : ∃ r ∈ table, stsci ∈ r.extra := by decide +kernel
  have hg : ∃ r ∈ table, glob ∈ r.extra := by decide +kernel
  constructor
  · intro h
    have h' : ∀ r ∈ table, ¬ Handles r.cls u := fun r hr => h _ (List.mem_map_of_mem hr)
    refine ⟨?_, ?_, ?_⟩
    · intro r hr n hn hnu
      exact h' r hr ((row_handles hr).2 (.inl ⟨n, hn, hnu⟩))
    · intro s hs hu
      obtain ⟨r, hr, he⟩ := hq
      exact h' r hr ((row_handles hr).2 (.inr ⟨_, he, stsci_iff.2 ⟨s, hs, hu⟩⟩))
    · intro a s ha hs hu
      obtain ⟨r, hr, he⟩ := hg
      exact h' r hr ((row_handles hr).2 (.inr ⟨_, he, glob_iff.2 ⟨a, s, ha, hs, hu⟩⟩))
  · rintro ⟨h1, h2, h3⟩ c hc hh
    obtain ⟨r, hr, rfl⟩ := List.mem_map.1 hc
    rcases (row_handles hr).1 hh with ⟨n, hn, hnu⟩ | ⟨p, hp, hpu⟩
    · exact h1 r hr n hn hnu
    · rcases table_extra r hr p hp with ⟨rfl, -⟩ | ⟨rfl, -⟩
      · obtain ⟨s, hs, hu⟩ := stsci_iff.1 hpu
        exact h2 s hs hu
      · obtain ⟨a, s, ha, hs, hu⟩ := glob_iff.1 hpu
        exact h3 a s ha hs hu

/-- **C90, manifest.** Each tag of the manifest has exactly one converter, and each converter has a tag in the manifest. -/
theorem C90_manifest :
    (∀ e ∈ manifest, ∃ r ∈ table, e.1 ∈ r.names ∧ getConverter weldx (manifestTag e) = .ok (some r.cls, false)) ∧
    ∀ r ∈ table, ∃ e ∈ manifest, Handles r.cls (manifestTag e) := by
  have h1 : ∀ e ∈ manifest, e.2 ≠ '/' ∧ ∃ r ∈ table, e.1 ∈ r.names := by decide +kernel
  have h2 : ∀ r ∈ table, ∃ e ∈ manifest, e.2 ≠ '/' ∧ e.1 ∈ r.names := by decide +kernel
  have h3 : ∀ e : String × Char, e.2 ≠ '/' → Named e.1.toList (manifestTag e) := by
    intro e he
    exact ⟨[e.2], by simpa using he.symm, rfl⟩
  refine ⟨?_, ?_⟩
  · intro e he
    obtain ⟨hs, r, hr, hn⟩ := h1 e he
    exact ⟨r, hr, hn, C90_weldx hr hn (h3 e hs)⟩
  · intro r hr
    obtain ⟨e, he, hs, hn⟩ := h2 r hr
    exact ⟨e, he, (row_handles hr).2 (.inl ⟨_, hn, h3 e hs⟩)⟩

/-- a tag of a file: the converter of time series is found for version 0.1.1 -/
example : ∃ r ∈ table, "core/time_series" ∈ r.names ∧
    getConverter weldx "asdf://weldx.bam.de/weldx/tags/core/time_series-0.1.1".toList = .ok (some r.cls, false) := by
  refine ⟨⟨["core/time_series"], []⟩, by decide +kernel, by decide +kernel, ?_⟩
  exact C90_weldx (by decide +kernel) (n := "core/time_series") (by decide +kernel) ⟨['1'], by decide, by decide +kernel⟩

/-! ## Processes -/

mutual
/-- there is no `None` in the value -/
def Info.Clean : Info → Prop
  | .null => False
  | .leaf _ => True
  | .list l => CleanList l
  | .dict d => CleanDict d
def CleanList : List Info → Prop
  | [] => True
  | x :: t => x.Clean ∧ CleanList t
def CleanDict : List (String × Info) → Prop
  | [] => True
  | (_, x) :: t => x.Clean ∧ CleanDict t
end

mutual
theorem strip_clean : (i : Info) → i.Clean → i.strip = i
  | .null, h => by simp [Info.Clean] at h
  | .leaf _, _ => by simp [Info.strip]
  | .list l, h => by
    rw [Info.Clean] at h
    rw [Info.strip, stripList_clean l h]
  | .dict d, h => by
    rw [Info.Clean] at h
    rw [Info.strip, stripDict_clean d h]
theorem stripList_clean : (l : List Info) → CleanList l → stripList l = l
  | [], _ => by simp [stripList]
  | .null :: _, h => by simp [CleanList, Info.Clean] at h
  | .leaf _ :: t, h => by
    rw [CleanList] at h
    rw [stripList, stripList_clean t h.2]
  | .list l :: t, h => by
    rw [CleanList, Info.Clean] at h
    rw [stripList, stripList_clean t h.2, stripList_clean l h.1]
  | .dict d :: t, h => by
    rw [CleanList, Info.Clean] at h
    rw [stripList, stripList_clean t h.2, stripDict_clean d h.1]
theorem stripDict_clean : (d : List (String × Info)) → CleanDict d → stripDict d = d
  | [], _ => by simp [stripDict]
  | (_, .null) :: _, h => by simp [CleanDict, Info.Clean] at h
  | (_, .leaf _) :: t, h => by
    rw [CleanDict] at h
    rw [stripDict, stripDict_clean t h.2]
  | (_, .list l) :: t, h => by
    rw [CleanDict, Info.Clean] at h
    rw [stripDict, stripDict_clean t h.2, stripList_clean l h.1]
  | (_, .dict d) :: t, h => by
    rw [CleanDict, Info.Clean] at h
    rw [stripDict, stripDict_clean t h.2, stripDict_clean d h.1]
end

mutual
theorem clean_strip : (i : Info) → i = .null ∨ i.strip.Clean
  | .null => .inl rfl
  | .leaf _ => by simp [Info.strip, Info.Clean]
  | .list l => by simpa [Info.strip, Info.Clean] using clean_stripList l
  | .dict d => by simpa [Info.strip, Info.Clean] using clean_stripDict d
theorem clean_stripList : (l : List Info) → CleanList (stripList l)
  | [] => by simp [stripList, CleanList]
  | .null :: t => by rw [stripList]; exact clean_stripList t
  | .leaf _ :: t => by rw [stripList, CleanList, Info.Clean]; exact ⟨trivial, clean_stripList t⟩
  | .list l :: t => by rw [stripList, CleanList, Info.Clean]; exact ⟨clean_stripList l, clean_stripList t⟩
  | .dict d :: t => by rw [stripList, CleanList, Info.Clean]; exact ⟨clean_stripDict d, clean_stripList t⟩
theorem clean_stripDict : (d : List (String × Info)) → CleanDict (stripDict d)
  | [] => by simp [stripDict, CleanDict]
  | (_, .null) :: t => by rw [stripDict]; exact clean_stripDict t
  | (_, .leaf _) :: t => by rw [stripDict, CleanDict, Info.Clean]; exact ⟨trivial, clean_stripDict t⟩
  | (_, .list l) :: t => by rw [stripDict, CleanDict, Info.Clean]; exact ⟨clean_stripList l, clean_stripDict t⟩
  | (_, .dict d) :: t => by rw [stripDict, CleanDict, Info.Clean]; exact ⟨clean_stripDict d, clean_stripDict t⟩
end

variable {A T : Type} (conv : A → Except Err T)

theorem convert_series (ps : List (String × T)) : convert conv (ps.map fun e => (e.1, .inr e.2)) = .ok ps := by
  induction ps with
  | nil => rfl
  | cons e t ih => simp [convert, series, ih, Except.map]

/-- **C90, created.** All parameters of a process are time series: those that were given, and the others converted; names and order are kept.
Without a tag the process is a general one. -/
theorem C90_created {base manufacturer source : String} {ps : List (String × (A ⊕ T))} {tag : Option (List Char)} {info : Option Info}
    {p : Proc T} (h : Proc.create conv base manufacturer source ps tag info = .ok p) :
    p.base = base ∧ p.manufacturer = manufacturer ∧ p.source = source ∧ p.info = info ∧
    (tag = some p.tag ∨ tag = none ∧ p.tag = "GMAW".toList) ∧
    List.Forall₂ (fun x y => y.1 = x.1 ∧ (x.2 = .inr y.2 ∨ ∃ a, x.2 = .inl a ∧ conv a = .ok y.2)) ps p.parameters := by
  unfold Proc.create at h
  cases hc : convert conv ps with
  | error e => rw [hc] at h; cases h
  | ok qs =>
    rw [hc] at h
    simp only [Except.map, Except.ok.injEq] at h
    subst h
    refine ⟨rfl, rfl, rfl, rfl, ?_, ?_⟩
    · cases tag with
      | none => exact .inr ⟨rfl, rfl⟩
      | some t => exact .inl rfl
    · show List.Forall₂ _ ps qs
      induction ps generalizing qs with
      | nil =>
        simp only [convert, Except.ok.injEq] at hc
        subst hc
        exact .nil
      | cons e t ih =>
        obtain ⟨k, v⟩ := e
        simp only [convert] at hc
        cases hv : series conv v with
        | error e => rw [hv] at hc; cases hc
        | ok s =>
          rw [hv] at hc
          cases ht : convert conv t with
          | error e => rw [ht] at hc; cases hc
          | ok ts =>
            rw [ht] at hc
            simp only [Except.map, Except.ok.injEq] at hc
            subst hc
            refine .cons ⟨rfl, ?_⟩ (ih ts ht)
            cases v with
            | inl a => exact .inr ⟨a, rfl, hv⟩
            | inr s' => exact .inl (by simpa [series] using hv)

/-- the three kinds of processes -/
def kinds : List (List Char) := ["GMAW".toList, "CLOOS/spray_arc".toList, "CLOOS/pulse".toList]

theorem kinds_match {t : List Char} :
    uriMatch processTags (formatTag ("process/".toList ++ t) "0.1.0".toList) = true ↔
      ∃ k ∈ kinds, t = k ∨ ∃ s, '/' ∉ s ∧ t = k ++ "-0.1.".toList ++ s := by
  have hp : processTags = kinds.map fun k => formatTag ("process/".toList ++ k) anyVersion := by decide +kernel
  have hstar : ∀ k ∈ kinds, '*' ∉ "process/".toList ++ k := by decide +kernel
  have hdash : ∀ k ∈ kinds, '-' ∉ k := by decide +kernel
  rw [uriMatch, hp, List.any_eq_true]
  simp only [List.mem_map, exists_exists_and_eq_and]
  refine exists_congr fun k => and_congr_right fun hk => ?_
  rw [C90_named (hstar k hk)]
  unfold Named formatTag
  have hv : "0.1.0".toList = "0.1.".toList ++ ['0'] := by decide +kernel
  have hm : "-0.1.".toList = '-' :: "0.1.".toList := by decide +kernel
  simp only [List.append_assoc, List.append_cancel_left_eq, hv, hm]
  have hk' := hdash k hk
  constructor
  · rintro ⟨s, hs, h⟩
    by_cases ht : '-' ∈ t
    · right
      obtain ⟨a, b, rfl, ha⟩ : ∃ a b, t = a ++ '-' :: b ∧ '-' ∉ a := by
        have := List.mem_iff_append.1 ht
        classical
        clear h this
        induction t with
        | nil => cases ht
        | cons c t ih =>
          by_cases hc : c = '-'
          · exact ⟨[], t, by rw [hc]; rfl, by simp⟩
          · rcases List.mem_cons.1 ht with h | h
            · exact absurd h.symm hc
            · obtain ⟨a, b, rfl, ha⟩ := ih h
              exact ⟨c :: a, b, rfl, by simp [ha, Ne.symm hc]⟩
      rw [List.append_assoc, List.cons_append] at h
      obtain ⟨rfl, h'⟩ := dash_inj ha hk' h
      -- `b ++ "-0.1.0" = "0.1." ++ s`
      have hlen : ∀ (b s : List Char), b ++ '-' :: ("0.1.".toList ++ ['0']) = "0.1.".toList ++ s → ∃ r, b = "0.1.".toList ++ r ∧
          s = r ++ '-' :: ("0.1.".toList ++ ['0']) := by
        intro b s h
        have h0 : "0.1.".toList = ['0', '.', '1', '.'] := by decide +kernel
        rw [h0] at h ⊢
        match b, h with
        | [], h => simp at h
        | [a], h => simp at h
        | [a, b], h => simp at h
        | [a, b, c], h => simp at h
        | a :: b :: c :: d :: r, h =>
          simp only [List.cons_append, List.nil_append, List.cons.injEq] at h
          obtain ⟨rfl, rfl, rfl, rfl, h⟩ := h
          exact ⟨r, rfl, h.symm⟩
      obtain ⟨r, rfl, rfl⟩ := hlen b s h'
      refine ⟨r, ?_, by simp⟩
      intro hr
      exact hs (List.mem_append_left _ hr)
    · left
      exact (dash_inj ht hk' h).1
  · rintro (rfl | ⟨s, hs, rfl⟩)
    · exact ⟨['0'], by decide, rfl⟩
    · refine ⟨s ++ '-' :: ("0.1.".toList ++ ['0']), ?_, by simp⟩
      intro h
      rcases List.mem_append.1 h with h | h
      · exact hs h
      · exact absurd h (by decide +kernel)

/-- **C90, process tag.** A process can be saved exactly if its tag is one of the three kinds, or one of the kinds with a version appended;
the tag of the file is the one of the process in version 0.1.0. -/
theorem C90_process_tag (p : Proc T) (t : List Char) :
    p.selectTag = .ok t ↔ t = formatTag ("process/".toList ++ p.tag) "0.1.0".toList ∧
      ∃ k ∈ kinds, p.tag = k ∨ ∃ s, '/' ∉ s ∧ p.tag = k ++ "-0.1.".toList ++ s := by
  have he : p.selectTag = if uriMatch processTags (formatTag ("process/".toList ++ p.tag) "0.1.0".toList) = true then
      .ok (formatTag ("process/".toList ++ p.tag) "0.1.0".toList) else .error .valueError := rfl
  rw [he, ← kinds_match]
  generalize formatTag ("process/".toList ++ p.tag) "0.1.0".toList = x
  by_cases h : uriMatch processTags x = true
  · rw [if_pos h]
    simp only [Except.ok.injEq, h, and_true, eq_comm]
  · rw [if_neg h]
    simp only [h, reduceCtorEq, and_false, Bool.false_eq_true]

/-- **C90, refuted.** A tag that is none of the three kinds is accepted, and the tag of the file is not a tag of a known version. -/
theorem C90_process_counterexample : ∃ p : Proc ℕ, p.tag ∉ kinds ∧
    p.selectTag = .ok "asdf://weldx.bam.de/weldx/tags/process/GMAW-0.1.0-0.1.0".toList := by
  exact ⟨⟨"", "", "", [], "GMAW-0.1.0".toList, none⟩, by decide +kernel, by decide +kernel⟩

theorem save_iff (p : Proc T) (t : List Char) (s : Stored T) : p.save = .ok (t, s) ↔ p.selectTag = .ok t ∧
    s = ⟨p.base, p.manufacturer, p.source, p.parameters, p.tag, (match p.info with | some .null => none | i => i).map Info.strip⟩ := by
  unfold Proc.save
  generalize p.selectTag = x
  cases x with
  | error e => simp [Except.map]
  | ok y =>
    simp only [Except.map, Except.ok.injEq, Prod.mk.injEq]
    exact and_congr_right fun _ => eq_comm

theorem read_eq (s : Stored T) : s.read conv = .ok ⟨s.base, s.manufacturer, s.source, s.parameters, s.tag, s.info⟩ := by
  unfold Stored.read Proc.create
  rw [convert_series]
  rfl

/-- **C90, process read.** Reading a saved process gives the same process, if there is no `None` in `meta`. -/
theorem C90_process_read_partial (p : Proc T) (hp : ∀ i, p.info = some i → i.Clean) {t : List Char} {s : Stored T}
    (h : p.save = .ok (t, s)) : s.read conv = .ok p := by
  obtain ⟨-, rfl⟩ := (save_iff p t s).1 h
  rw [read_eq]
  cases p with
  | mk b m so ps tg info =>
    simp only [Except.ok.injEq, Proc.mk.injEq, true_and]
    cases info with
    | none => rfl
    | some i =>
      have := strip_clean i (hp i rfl)
      cases i with
      | null => exact absurd (hp _ rfl) (by simp [Info.Clean])
      | leaf _ => exact congrArg some this
      | list _ => exact congrArg some this
      | dict _ => exact congrArg some this

/-- **C90, process read in general.** What is read differs only by the missing `None`; reading and saving again changes nothing more. -/
theorem C90_process_again (p : Proc T) {t : List Char} {s : Stored T} (h : p.save = .ok (t, s)) :
    ∃ q : Proc T, s.read conv = .ok q ∧ q.base = p.base ∧ q.manufacturer = p.manufacturer ∧ q.source = p.source ∧
      q.parameters = p.parameters ∧ q.tag = p.tag ∧ (∀ i, q.info = some i → i.Clean) ∧ q.save = .ok (t, s) := by
  obtain ⟨hs, rfl⟩ := (save_iff p t s).1 h
  rw [read_eq]
  have hclean : ∀ i, (match p.info with | some .null => none | i => i).map Info.strip = some i → i.Clean := by
    intro i hi
    cases hpi : p.info with
    | none => rw [hpi] at hi; cases hi
    | some j =>
      rw [hpi] at hi
      rcases clean_strip j with rfl | hc
      · cases hi
      · cases j with
        | null => cases hi
        | leaf _ => cases hi; exact hc
        | list _ => cases hi; exact hc
        | dict _ => cases hi; exact hc
  refine ⟨_, rfl, rfl, rfl, rfl, rfl, rfl, hclean, ?_⟩
  rw [save_iff]
  refine ⟨hs, ?_⟩
  simp only [Stored.mk.injEq, true_and]
  generalize (match p.info with | some .null => none | i => i).map Info.strip = x at hclean
  cases x with
  | none => rfl
  | some i =>
    have hc := hclean i rfl
    have := strip_clean i hc
    cases i with
    | null => exact absurd hc (by simp [Info.Clean])
    | leaf _ => exact (congrArg some this).symm
    | list _ => exact (congrArg some this).symm
    | dict _ => exact (congrArg some this).symm

/-- **C90, refuted.** An entry with value `None` in `meta` is lost. -/
theorem C90_meta_counterexample : ∃ (p : Proc ℕ) (t : List Char) (s : Stored ℕ) (q : Proc ℕ),
    p.save = .ok (t, s) ∧ s.read (fun n : ℕ => .ok n) = .ok q ∧ q.info ≠ p.info := by
  refine ⟨⟨"", "", "", [], "GMAW".toList, some (.dict [("modulation", .null)])⟩,
    formatTag ("process/".toList ++ "GMAW".toList) "0.1.0".toList, ⟨"", "", "", [], "GMAW".toList, some (.dict [])⟩,
    ⟨"", "", "", [], "GMAW".toList, some (.dict [])⟩, ?_, rfl, by simp⟩
  have h : (⟨"", "", "", [], "GMAW".toList, some (.dict [("modulation", .null)])⟩ : Proc ℕ).selectTag =
      .ok (formatTag ("process/".toList ++ "GMAW".toList) "0.1.0".toList) := by decide +kernel
  rw [save_iff]
  refine ⟨h, ?_⟩
  simp only [Option.map_some, Info.strip, stripDict]

/-- a pulse process with one constant parameter -/
def pulse : Proc ℕ := ⟨"pulse", "CLOOS", "Quinto", [("wire_feedrate", 10), ("pulse_voltage", 40)], "CLOOS/pulse".toList,
  some (.dict [("modulation", .leaf "UI")])⟩

example : Proc.create (fun n : ℕ => .ok n) "pulse" "CLOOS" "Quinto" [("wire_feedrate", .inl 10), ("pulse_voltage", .inr 40)]
      (some "CLOOS/pulse".toList) (some (.dict [("modulation", .leaf "UI")])) = .ok pulse ∧
    pulse.selectTag = .ok "asdf://weldx.bam.de/weldx/tags/process/CLOOS/pulse-0.1.0".toList ∧
    (∀ i, pulse.info = some i → i.Clean) := by
  refine ⟨rfl, by decide +kernel, ?_⟩
  intro i hi
  cases hi
  exact ⟨trivial, trivial⟩

/-! ## Grooves -/

theorem groove_pattern : ∀ c ∈ grooves,
    ((groovePatterns grooves).filter fun p => isIn (grooveBase ++ c.toList) p) = [formatTag (grooveBase ++ c.toList) anyVersion] := by
  decide +kernel

/-- **C90, groove tag.** A groove is saved with the first tag of the extension that has the name of its class. -/
theorem C90_groove_tag {c : String} (hc : c ∈ grooves) (tags : List (List Char)) (t : List Char) :
    grooveTag grooves tags c = .ok t ↔
      ∃ a b, tags = a ++ t :: b ∧ Named (grooveBase ++ c.toList) t ∧ ∀ u ∈ a, ¬ Named (grooveBase ++ c.toList) u := by
  have hstar : '*' ∉ grooveBase ++ c.toList := by
    revert hc
    revert c
    decide +kernel
  unfold grooveTag
  rw [groove_pattern c hc]
  simp only
  cases hf : tags.filter (fun t => asdfMatch (formatTag (grooveBase ++ c.toList) anyVersion) t) with
  | nil =>
    simp only [reduceCtorEq, false_iff]
    rintro ⟨a, b, rfl, h, -⟩
    rw [List.filter_eq_nil_iff] at hf
    exact hf t (by simp) ((C90_named hstar).2 h)
  | cons x l =>
    simp only [Except.ok.injEq]
    rw [List.filter_eq_cons_iff] at hf
    obtain ⟨a, b, hab, ha, hx, -⟩ := hf
    constructor
    · rintro rfl
      exact ⟨a, b, hab, (C90_named hstar).1 hx, fun u hu h => ha u hu ((C90_named hstar).2 h)⟩
    · rintro ⟨a', b', hab', ht, ha'⟩
      have key : ∀ (a a' : List (List Char)) (b b' : List (List Char)), a ++ x :: b = a' ++ t :: b' →
          (∀ u ∈ a, ¬ Named (grooveBase ++ c.toList) u) → (∀ u ∈ a', ¬ Named (grooveBase ++ c.toList) u) → x = t := by
        intro a
        induction a with
        | nil =>
          intro a' b b' h _ h2
          cases a' with
          | nil => exact (List.cons.inj h).1
          | cons y a' =>
            have := (List.cons.inj h).1
            exact absurd ((C90_named hstar).1 hx) (this ▸ h2 y (by simp))
        | cons z a ih =>
          intro a' b b' h h1 h2
          cases a' with
          | nil =>
            have := (List.cons.inj h).1
            exact absurd ht (this ▸ h1 z (by simp))
          | cons y a' =>
            exact ih a' b b' (List.cons.inj h).2 (fun u hu => h1 u (by simp [hu])) (fun u hu => h2 u (by simp [hu]))
      exact key a a' b b' (hab ▸ hab') (fun u hu h => ha u hu ((C90_named hstar).2 h)) ha'

theorem isIn_append (p s q : List Char) : isIn s (p ++ s ++ q) = true := by
  induction p with
  | nil =>
    cases s with
    | nil => cases q <;> simp [isIn]
    | cons c s =>
      simp only [List.nil_append, List.cons_append, isIn, Bool.or_eq_true]
      left
      rw [List.isPrefixOf_iff_prefix]
      exact ⟨q, by simp⟩
  | cons c p ih =>
    simp only [List.cons_append, isIn, Bool.or_eq_true]
    exact Or.inr ih

/-- **C90, ambiguous groove.** If two registered names start with the name of the class, saving raises a `ValueError`, whatever tags there
are. -/
theorem C90_groove_ambiguous {names pre mid post : List String} {a b c : String} (h : names = pre ++ a :: mid ++ b :: post)
    (ha : c.toList <+: a.toList) (hb : c.toList <+: b.toList) (tags : List (List Char)) : grooveTag names tags c = .error .valueError := by
  have key : ∀ a : String, c.toList <+: a.toList → isIn (grooveBase ++ c.toList) (formatTag (grooveBase ++ a.toList) anyVersion) = true := by
    rintro a ⟨r, hr⟩
    have := isIn_append tagBase (grooveBase ++ c.toList) (r ++ '-' :: anyVersion)
    rw [formatTag, ← hr]
    simpa [List.append_assoc] using this
  have hf : ∃ x y l, ((groovePatterns names).filter fun p => isIn (grooveBase ++ c.toList) p) = x :: y :: l := by
    have h2 : 2 ≤ ((groovePatterns names).filter fun p => isIn (grooveBase ++ c.toList) p).length := by
      rw [h]
      simp only [groovePatterns, List.map_append, List.map_cons, List.filter_append, List.filter_cons, key a ha, key b hb, if_true,
        List.length_append, List.length_cons]
      omega
    match hm : (groovePatterns names).filter fun p => isIn (grooveBase ++ c.toList) p with
    | [] => rw [hm] at h2; simp at h2
    | [_] => rw [hm] at h2; simp at h2
    | x :: y :: l => exact ⟨x, y, l, rfl⟩
  obtain ⟨x, y, l, hxy⟩ := hf
  unfold grooveTag
  rw [hxy]

/-- two names that start with the same one -/
example (tags : List (List Char)) : grooveTag ["VGroove", "UGroove", "VGrooveWide"] tags "VGroove" = .error .valueError :=
  C90_groove_ambiguous (pre := []) (mid := ["UGroove"]) (post := []) rfl (by decide +kernel) (by decide +kernel) tags

/-- **C90, refuted.** The documentation says that the highest tag is selected, but the first one is: with the tags of version 0.1.0 and 0.1.1
the old one is written. -/
theorem C90_groove_counterexample : ∃ tags : List (List Char),
    grooveTag grooves tags "VGroove" = .ok "asdf://weldx.bam.de/weldx/tags/groove/iso_9692_1_2013_12/VGroove-0.1.0".toList ∧
    "asdf://weldx.bam.de/weldx/tags/groove/iso_9692_1_2013_12/VGroove-0.1.1".toList ∈ tags := by
  refine ⟨["asdf://weldx.bam.de/weldx/tags/groove/iso_9692_1_2013_12/VGroove-0.1.0".toList,
    "asdf://weldx.bam.de/weldx/tags/groove/iso_9692_1_2013_12/VGroove-0.1.1".toList], by decide +kernel, by decide +kernel⟩

theorem afterLast_none {sep s : List Char} (h : s.count '/' < sep.count '/') : afterLast? sep s = none := by
  induction s with
  | nil => rfl
  | cons c t ih =>
    have ht : t.count '/' < sep.count '/' := lt_of_le_of_lt (List.Sublist.count_le _ (List.sublist_cons_self c t)) h
    have hp : ¬ sep.isPrefixOf (c :: t) = true := by
      intro hp
      have := List.Sublist.count_le '/' (List.isPrefixOf_iff_prefix.1 hp).sublist
      omega
    simp [afterLast?, ih ht, hp]

theorem afterLast_append {sep a s r : List Char} (h : afterLast? sep s = some r) : afterLast? sep (a ++ s) = some r := by
  induction a with
  | nil => exact h
  | cons c a ih => simp [afterLast?, ih]

/-- **C90, groove class.** The class is read from the tag it was saved with, for all versions. -/
theorem C90_groove_class {c v : List Char} (hc : '/' ∉ c) (hv : '/' ∉ v) (hd : '-' ∉ v) :
    classFromTag (formatTag (grooveBase ++ c) v) = c := by
  have he : formatTag (grooveBase ++ c) v =
      (tagBase ++ "groove".toList) ++ ("/iso_9692_1_2013_12/".toList ++ (c ++ '-' :: v)) := by
    have : grooveBase = "groove".toList ++ "/iso_9692_1_2013_12/".toList := by decide +kernel
    rw [formatTag, this]
    simp
  have hs : "/iso_9692_1_2013_12/".toList = '/' :: "iso_9692_1_2013_12/".toList := by decide +kernel
  have hcount : (c ++ '-' :: v).count '/' = 0 := by
    rw [List.count_eq_zero]
    intro h
    rcases List.mem_append.1 h with h | h
    · exact hc h
    · rcases List.mem_cons.1 h with h | h
      · exact absurd h (by decide)
      · exact hv h
  have h1 : afterLast? "/iso_9692_1_2013_12/".toList ("/iso_9692_1_2013_12/".toList ++ (c ++ '-' :: v)) = some (c ++ '-' :: v) := by
    have hn : afterLast? "/iso_9692_1_2013_12/".toList ("iso_9692_1_2013_12/".toList ++ (c ++ '-' :: v)) = none := by
      apply afterLast_none
      rw [List.count_append, hcount]
      decide +kernel
    have hpre : List.isPrefixOf "/iso_9692_1_2013_12/".toList ("/iso_9692_1_2013_12/".toList ++ (c ++ '-' :: v)) = true :=
      List.isPrefixOf_iff_prefix.2 (List.prefix_append _ _)
    have hdrop : ("/iso_9692_1_2013_12/".toList ++ (c ++ '-' :: v)).drop "/iso_9692_1_2013_12/".toList.length = c ++ '-' :: v :=
      List.drop_left
    generalize hsep : "/iso_9692_1_2013_12/".toList = sep at *
    rw [hs] at hn hpre hdrop ⊢
    rw [List.cons_append] at hpre hdrop ⊢
    rw [afterLast?, hn]
    simp only [hpre, if_true]
    exact congrArg some hdrop
  unfold classFromTag
  rw [he, afterLast_append h1]
  simp [Ver.rpartition, Ver.rpart?_append hd]

example : "VGroove" ∈ grooves ∧ classFromTag "asdf://weldx.bam.de/weldx/tags/groove/iso_9692_1_2013_12/VGroove-0.1.0".toList = "VGroove".toList := by
  decide +kernel

/-! ## Quality standards -/

variable {C : Type}

/-- **C90, enable.** Enabling a standard makes the requested version of the standard that was registered last under this name active, and
leaves everything else as it is; unknown names and versions are rejected. -/
theorem C90_enable (c : Config C) (n : String) (v : Option Ver.V3) (r : Config C) :
    c.enable n v = .ok r ↔ ∃ s m, Dict.get? c.standards n = some s ∧ s.getMappings v = .ok m ∧
      r.standards = c.standards ∧ r.active = (n, m) :: c.active := by
  unfold Config.enable
  cases hs : Dict.get? c.standards n with
  | none => simp
  | some s =>
    cases hm : s.getMappings v with
    | error e => simp [hm]
    | ok m =>
      show (match s.getMappings v with
        | .error e => .error e
        | .ok m => .ok { c with active := (n, m) :: c.active }) = Except.ok r ↔ _
      rw [hm]
      simp only [Except.ok.injEq, Option.some.injEq]
      constructor
      · rintro rfl
        exact ⟨s, m, rfl, hm, rfl, rfl⟩
      · rintro ⟨s', m', rfl, hm', h1, h2⟩
        rw [hm] at hm'
        cases hm'
        cases r
        simp only at h1 h2
        rw [h1, h2]

/-- **C90, registered.** After loading the installed standards, each name refers to the last standard of this name before the first object
that is no standard; other names refer to what was registered before. -/
theorem C90_load (c : Config C) (l : List (Option (String × Ver.Standard C))) :
    (c.load l).1.active = c.active ∧
    ((c.load l).2 = none ↔ none ∉ l) ∧ ((c.load l).2 ≠ none → (c.load l).2 = some .typeError) ∧
    ∃ good : List (String × Ver.Standard C), ∃ rest, l = good.map some ++ rest ∧ (rest = [] ∨ ∃ t, rest = none :: t) ∧
      ∀ n, (∀ s, (∃ a b, good = a ++ (n, s) :: b ∧ n ∉ Dict.keys b) → Dict.get? (c.load l).1.standards n = some s) ∧
        (n ∉ Dict.keys good → Dict.get? (c.load l).1.standards n = Dict.get? c.standards n) := by
  induction l generalizing c with
  | nil => exact ⟨rfl, by simp [Config.load], by simp [Config.load], [], [], rfl, .inl rfl, fun n => ⟨by rintro s ⟨a, b, h, -⟩; simp at h, fun _ => rfl⟩⟩
  | cons x t ih =>
    cases x with
    | none =>
      exact ⟨rfl, by simp [Config.load], by simp [Config.load], [], none :: t, rfl, .inr ⟨t, rfl⟩,
        fun n => ⟨by rintro s ⟨a, b, h, -⟩; simp at h, fun _ => rfl⟩⟩
    | some e =>
      obtain ⟨m, st⟩ := e
      obtain ⟨h1, h2, h3, good, rest, h4, h5, h6⟩ := ih (c.add m st)
      refine ⟨h1, by simpa [Config.load] using h2, h3, (m, st) :: good, rest, by simp [h4], h5, ?_⟩
      intro n
      obtain ⟨h7, h8⟩ := h6 n
      constructor
      · rintro s ⟨a, b, hab, hb⟩
        cases a with
        | nil =>
          obtain ⟨he, rfl⟩ := List.cons.inj hab
          cases he
          rw [Config.load, h8 hb, Config.add, Dict.get?_set]
          simp
        | cons y a =>
          obtain ⟨rfl, rfl⟩ := List.cons.inj hab
          exact h7 s ⟨a, b, rfl, hb⟩
      · intro hn
        simp only [Dict.keys_cons, List.mem_cons, not_or] at hn
        rw [Config.load, h8 hn.2, Config.add, Dict.get?_set]
        simp [hn.1]

end Weldx.Tag
