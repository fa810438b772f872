import Verif.Validators.Walk

/-!
# Properties of unit and tag validation (C65)
-/

namespace Weldx.Walk
variable {D : Type} [DecidableEq D]

/-! ### Specification -/

/-- the unit of a node: numbers and arrays of numbers have none (dimensionless), a mapping with the entry "units" has this one, a data
array the one of its data -/
inductive HasUnit (u : Units D) : Node → D → Prop
  | num : HasUnit u .num u.dless
  | bool : HasUnit u .bool u.dless
  | array {n t} (h : n = .str (some t) s ∨ n = .list (some t) l ∨ (n = .map (some t) m ∧ "units" ∉ Dict.keys m))
      (ht : u.isNdarray t = true) : HasUnit u n u.dless
  | units {t m n d} (h : Dict.get? m "units" = some n) (hd : u.parse (u.text n) = some d) : HasUnit u (.map t m) d
  | data {t m n d} (h : "units" ∉ Dict.keys m) (h1 : u.isNdarray t = false) (h2 : u.isDataArray t = true)
      (hn : Dict.get? m "data" = some n) (hd : HasUnit u n d) : HasUnit u (.map (some t) m) d

/-- a schema requires the unit `s` for the node `c` of the tree `n` -/
inductive Requires : Node → Sch → Node → String → Prop
  | leaf {n s} : Requires n (.leaf s) n s
  | key {t m l k c s} (h : (k, Sch.leaf s) ∈ l) (hc : Dict.get? m k = some c) : Requires (.map t m) (.dict l) c s
  | sub {t m l k d c n s} (h : (k, Sch.dict d) ∈ l) (hc : Dict.get? m k = some c) (hr : Requires c (.dict d) n s) :
      Requires (.map t m) (.dict l) n s

/-- the tree has all nested mappings of the schema -/
inductive Fits : Node → Sch → Prop
  | leaf {n s} : Fits n (.leaf s)
  | dict {t m l} (c : String → Node) (hc : ∀ k d, (k, Sch.dict d) ∈ l → Dict.get? m k = some (c k))
      (h : ∀ k d, (k, Sch.dict d) ∈ l → Fits (c k) (.dict d)) : Fits (.map t m) (.dict l)

/-! ### Lemmas -/

theorem unitsData_eq (u : Units D) (m : List (String × Node)) :
    unitsData u m = match Dict.get? m "data" with
      | none => .error .keyError
      | some n => units u n := by
  induction m with
  | nil => simp [unitsData, Dict.get?]
  | cons e t ih =>
    obtain ⟨k, n⟩ := e
    by_cases h : k = "data"
    · simp [unitsData, Dict.get?, h]
    · simp [unitsData, Dict.get?, h, ih]

theorem units_map (u : Units D) (t : Option String) (m : List (String × Node)) :
    units u (.map t m) = match Dict.get? m "units" with
    | some n => match u.parse (u.text n) with
      | some d => .ok (some d)
      | none => .error .unitError
    | none => match t with
      | none => .ok none
      | some t => if u.isNdarray t then .ok (some u.dless) else if u.isDataArray t then unitsData u m else .ok none := by
  cases t <;> simp only [units] <;> rfl

theorem hasUnit_units {u : Units D} {n : Node} {d : D} (h : HasUnit u n d) : units u n = .ok (some d) := by
  induction h with
  | num => simp [units]
  | bool => simp [units]
  | array h ht =>
    rcases h with rfl | rfl | ⟨rfl, hu⟩
    · simp [units, ht]
    · simp [units, ht]
    · rw [units_map, Dict.get?_eq_none.2 hu]; simp [ht]
  | units h hd => rw [units_map, h]; simp [hd]
  | data h h1 h2 hn hd ih => rw [units_map, Dict.get?_eq_none.2 h]; simp [h1, h2, unitsData_eq, hn, ih]

theorem sizeOf_get {m : List (String × Node)} {k : String} {n : Node} (h : Dict.get? m k = some n) : sizeOf n < sizeOf m := by
  induction m with
  | nil => simp [Dict.get?] at h
  | cons e t ih =>
    obtain ⟨k', n'⟩ := e
    simp only [Dict.get?] at h
    split at h
    · cases h; simp; omega
    · have := ih h; simp; omega

theorem units_hasUnit {u : Units D} {n : Node} {d : D} (h : units u n = .ok (some d)) : HasUnit u n d := by
  match n with
  | .num => simp [units] at h; subst h; exact .num
  | .bool => simp [units] at h; subst h; exact .bool
  | .null => simp [units] at h
  | .str none s => simp [units] at h
  | .str (some t) s =>
    simp only [units] at h
    split at h
    · rename_i ht
      cases h
      exact .array (s := s) (l := []) (m := []) (.inl rfl) ht
    · split at h <;> cases h
  | .list none s => simp [units] at h
  | .list (some t) s =>
    simp only [units] at h
    split at h
    · rename_i ht
      cases h
      exact .array (s := "") (l := s) (m := []) (.inr (.inl rfl)) ht
    · split at h <;> cases h
  | .map t m =>
    rw [units_map] at h
    cases hu : Dict.get? m "units" with
    | some n =>
      rw [hu] at h
      simp only at h
      cases hp : u.parse (u.text n) with
      | none => rw [hp] at h; cases h
      | some d' => rw [hp] at h; cases h; exact .units hu hp
    | none =>
      rw [hu] at h
      cases t with
      | none => cases h
      | some t =>
        simp only at h
        by_cases h1 : u.isNdarray t = true
        · rw [if_pos h1] at h
          cases h
          exact .array (s := "") (l := []) (m := m) (.inr (.inr ⟨rfl, Dict.get?_eq_none.1 hu⟩)) h1
        · rw [if_neg h1] at h
          by_cases h2 : u.isDataArray t = true
          · rw [if_pos h2, unitsData_eq] at h
            cases hd : Dict.get? m "data" with
            | none => rw [hd] at h; cases h
            | some c =>
              rw [hd] at h
              have := sizeOf_get hd
              exact .data (Dict.get?_eq_none.1 hu) (by simpa using h1) h2 hd (units_hasUnit h)
          · rw [if_neg h2] at h; cases h
termination_by sizeOf n
decreasing_by
  simp_wf
  omega

theorem seq_valid {a b : Res} : (a.seq b).outcome = .valid ↔ a.outcome = .valid ∧ b.outcome = .valid := by
  obtain ⟨ea, ca⟩ := a
  obtain ⟨eb, cb⟩ := b
  cases ea <;> cases ca <;> cases eb <;> cases cb <;> simp [Res.seq, Res.outcome]

theorem seq_crash {a b : Res} {c : Crash} (h : (a.seq b).outcome = .crashed c) :
    a.outcome = .crashed c ∨ (a.outcome = .valid ∧ b.outcome = .crashed c) := by
  obtain ⟨ea, ca⟩ := a
  obtain ⟨eb, cb⟩ := b
  cases ea <;> cases ca <;> cases eb <;> cases cb <;> simp_all [Res.seq, Res.outcome]

theorem items_valid {f : Node → String → Res} {sub : String → String → Bool} {n : Node} {l : List (String × Sch)} :
    (walkItems f sub n l).outcome = .valid ↔
      (∀ k d, (k, Sch.dict d) ∈ l → ∃ c, item n k = .ok c ∧ (walk f sub c (.dict d)).outcome = .valid) ∧
      (∀ k s, (k, Sch.leaf s) ∈ l → ∃ o, itemIn sub n k = .ok o ∧ ∀ c, o = some c → (f c s).outcome = .valid) := by
  induction l with
  | nil => simp [walkItems, Res.ok, Res.outcome]
  | cons e t ih =>
    obtain ⟨k, s⟩ := e
    cases s with
    | dict d =>
      rw [walkItems, seq_valid, ih]
      constructor
      · rintro ⟨h1, h2, h3⟩
        refine ⟨fun k' d' hm => ?_, fun k' s' hm => h3 k' s' (by simpa using hm)⟩
        simp only [List.mem_cons, Prod.mk.injEq, Sch.dict.injEq] at hm
        rcases hm with ⟨rfl, rfl⟩ | hm
        · cases hi : item n k' with
          | error c => rw [hi] at h1; simp [Res.outcome] at h1
          | ok c => rw [hi] at h1; exact ⟨c, rfl, h1⟩
        · exact h2 k' d' hm
      · rintro ⟨h1, h2⟩
        obtain ⟨c, hc, hv⟩ := h1 k d (by simp)
        refine ⟨by rw [hc]; exact hv, fun k' d' hm => h1 k' d' (List.mem_cons_of_mem _ hm),
          fun k' s' hm => h2 k' s' (List.mem_cons_of_mem _ hm)⟩
    | leaf s =>
      rw [walkItems, seq_valid, ih]
      constructor
      · rintro ⟨h1, h2, h3⟩
        refine ⟨fun k' d' hm => h2 k' d' (by simpa using hm), fun k' s' hm => ?_⟩
        simp only [List.mem_cons, Prod.mk.injEq, Sch.leaf.injEq] at hm
        rcases hm with ⟨rfl, rfl⟩ | hm
        · cases hi : itemIn sub n k' with
          | error c => rw [hi] at h1; simp [Res.outcome] at h1
          | ok o =>
            refine ⟨o, rfl, fun c hc => ?_⟩
            subst hc
            rw [hi] at h1
            exact h1
        · exact h3 k' s' hm
      · rintro ⟨h1, h2⟩
        obtain ⟨o, ho, hv⟩ := h2 k s (by simp)
        refine ⟨?_, fun k' d' hm => h1 k' d' (List.mem_cons_of_mem _ hm),
          fun k' s' hm => h2 k' s' (List.mem_cons_of_mem _ hm)⟩
        rw [ho]
        cases o with
        | none => simp [Res.ok, Res.outcome]
        | some c => exact hv c rfl

theorem items_crash {f : Node → String → Res} {sub : String → String → Bool} {n : Node} {l : List (String × Sch)} {c : Crash}
    (h : (walkItems f sub n l).outcome = .crashed c) :
    (∃ k d, (k, Sch.dict d) ∈ l ∧ (item n k = .error c ∨ ∃ x, item n k = .ok x ∧ (walk f sub x (.dict d)).outcome = .crashed c)) ∨
      (∃ k s, (k, Sch.leaf s) ∈ l ∧ (itemIn sub n k = .error c ∨ ∃ x, itemIn sub n k = .ok (some x) ∧ (f x s).outcome = .crashed c)) := by
  induction l with
  | nil => simp [walkItems, Res.ok, Res.outcome] at h
  | cons e t ih =>
    obtain ⟨k, s⟩ := e
    have lift : ((∃ k d, (k, Sch.dict d) ∈ t ∧ (item n k = .error c ∨ ∃ x, item n k = .ok x ∧ (walk f sub x (.dict d)).outcome = .crashed c)) ∨
      (∃ k s, (k, Sch.leaf s) ∈ t ∧ (itemIn sub n k = .error c ∨ ∃ x, itemIn sub n k = .ok (some x) ∧ (f x s).outcome = .crashed c))) →
      ((∃ k' d, (k', Sch.dict d) ∈ (k, s) :: t ∧ (item n k' = .error c ∨ ∃ x, item n k' = .ok x ∧ (walk f sub x (.dict d)).outcome = .crashed c)) ∨
      (∃ k' s', (k', Sch.leaf s') ∈ (k, s) :: t ∧ (itemIn sub n k' = .error c ∨ ∃ x, itemIn sub n k' = .ok (some x) ∧ (f x s').outcome = .crashed c))) := by
      rintro (⟨k', d, hm, h⟩ | ⟨k', d, hm, h⟩)
      · exact .inl ⟨k', d, List.mem_cons_of_mem _ hm, h⟩
      · exact .inr ⟨k', d, List.mem_cons_of_mem _ hm, h⟩
    cases s with
    | dict d =>
      rw [walkItems] at h
      rcases seq_crash h with h | ⟨-, h⟩
      · refine .inl ⟨k, d, by simp, ?_⟩
        cases hi : item n k with
        | error e => rw [hi] at h; simp [Res.outcome] at h; exact .inl (by rw [h])
        | ok x => rw [hi] at h; exact .inr ⟨x, rfl, h⟩
      · exact lift (ih h)
    | leaf s =>
      rw [walkItems] at h
      rcases seq_crash h with h | ⟨-, h⟩
      · refine .inr ⟨k, s, by simp, ?_⟩
        cases hi : itemIn sub n k with
        | error e => rw [hi] at h; simp [Res.outcome] at h; exact .inl (by rw [h])
        | ok o =>
          rw [hi] at h
          cases o with
          | none => simp [Res.ok, Res.outcome] at h
          | some x => exact .inr ⟨x, rfl, h⟩
      · exact lift (ih h)

theorem unitValidator_valid {u : Units D} {n : Node} {s : String} :
    (unitValidator u n s).outcome = .valid ↔ ∃ d, HasUnit u n d ∧ u.parse s = some d := by
  unfold unitValidator
  constructor
  · intro h
    cases hu : units u n with
    | error c => rw [hu] at h; simp [Res.outcome] at h
    | ok o =>
      rw [hu] at h
      cases o with
      | none => simp [Res.outcome] at h
      | some d =>
        cases hp : u.parse s with
        | none => rw [hp] at h; simp [Res.outcome] at h
        | some e =>
          rw [hp] at h
          simp only at h
          split at h
          · rename_i hde; subst hde; exact ⟨d, units_hasUnit hu, rfl⟩
          · simp [Res.outcome] at h
  · rintro ⟨d, hd, hp⟩
    rw [hasUnit_units hd, hp]
    simp [Res.outcome, Res.ok]

/-! ### Theorems -/

/-- C65: a tree with all nested mappings of the schema is valid exactly if every node for which a unit is required has a unit of this
dimension. -/
theorem C65_unit (u : Units D) (sub : String → String → Bool) (n : Node) (s : Sch) (hf : Fits n s) :
    wxUnit u sub n s = .valid ↔ ∀ c r, Requires n s c r → ∃ d, HasUnit u c d ∧ u.parse r = some d := by
  unfold wxUnit
  induction hf with
  | leaf =>
    rw [walk, unitValidator_valid]
    constructor
    · intro h c r hr; cases hr; exact h
    · intro h; exact h _ _ .leaf
  | @dict t m l c hc hl ih =>
    rw [walk, items_valid]
    constructor
    · rintro ⟨h1, h2⟩ x r hr
      cases hr with
      | key hk hx =>
        obtain ⟨o, ho, hv⟩ := h2 _ _ hk
        simp only [itemIn, Except.ok.injEq] at ho
        rw [hx] at ho
        exact unitValidator_valid.1 (hv x ho.symm)
      | sub hk hx hr =>
        obtain ⟨y, hy, hv⟩ := h1 _ _ hk
        have e1 := hc _ _ hk
        rw [hx] at e1
        cases e1
        simp only [item, hx, Except.ok.injEq] at hy
        subst hy
        exact (ih _ _ hk).1 hv _ _ hr
    · intro h
      refine ⟨fun k d hk => ⟨c k, by simp [item, hc k d hk], ?_⟩, fun k r hk => ⟨Dict.get? m k, rfl, fun x hx => ?_⟩⟩
      · exact (ih k d hk).2 fun x r hr => h x r (.sub hk (hc k d hk) hr)
      · exact unitValidator_valid.2 (h x r (.key hk hx))

/-- C65: such a tree is never the reason of another exception, if the units in the schema and in the tree can be read. -/
theorem C65_unit_no_crash (u : Units D) (sub : String → String → Bool) (n : Node) (s : Sch) (hf : Fits n s)
    (hu : ∀ c r, Requires n s c r → (∃ o, units u c = .ok o) ∧ (u.parse r).isSome) (e : Crash) : wxUnit u sub n s ≠ .crashed e := by
  have leafCase : ∀ {c r}, ((∃ o, units u c = .ok o) ∧ (u.parse r).isSome) → (unitValidator u c r).outcome ≠ .crashed e := by
    rintro c r ⟨⟨o, ho⟩, hp⟩
    obtain ⟨d, hd⟩ := Option.isSome_iff_exists.1 hp
    unfold unitValidator
    rw [ho, hd]
    cases o with
    | none => simp [Res.outcome]
    | some x => simp only; split <;> simp [Res.outcome, Res.ok]
  unfold wxUnit
  induction hf with
  | leaf => rw [walk]; exact leafCase (hu _ _ .leaf)
  | @dict t m l c hc hl ih =>
    rw [walk]
    intro h
    rcases items_crash h with ⟨k, d, hk, h⟩ | ⟨k, r, hk, h⟩
    · simp only [item, hc k d hk, reduceCtorEq, Except.ok.injEq, exists_eq_left', false_or] at h
      exact ih k d hk (fun x r hr => hu x r (.sub hk (hc k d hk) hr)) h
    · simp only [itemIn, reduceCtorEq, Except.ok.injEq, false_or] at h
      obtain ⟨x, hx, h⟩ := h
      exact leafCase (hu x r (.key hk hx)) h

/-- C65: the nested mappings of the schema must exist, even if no property of the tree is required: a valid tree has all of them. -/
theorem C65_nested_required (u : Units D) (sub : String → String → Bool) (n : Node) (l : List (String × Sch)) (k : String)
    (d : List (String × Sch)) (hk : (k, Sch.dict d) ∈ l) (h : wxUnit u sub n (.dict l) = .valid) :
    ∃ t m c, n = .map t m ∧ Dict.get? m k = some c ∧ wxUnit u sub c (.dict d) = .valid := by
  unfold wxUnit at h
  rw [walk, items_valid] at h
  obtain ⟨c, hc, hv⟩ := h.1 k d hk
  cases n with
  | map t m =>
    simp only [item] at hc
    cases hg : Dict.get? m k with
    | none => rw [hg] at hc; cases hc
    | some x => rw [hg] at hc; cases hc; exact ⟨t, m, _, rfl, hg, hv⟩
  | _ => simp [item] at hc

/-- units of the examples: the dimension of a unit is its text -/
def exUnits : Units String where
  parse s := some s
  dless := ""
  text n := match n with | .str _ s => s | _ => ""
  isNdarray _ := false
  isDataArray t := decide (t = "data_array")

/-- a quantity -/
def exQ (s : String) : Node := .map none [("value", .num), ("units", .str none s)]

/-- the schema /repo/weldx/schemas/weldx.bam.de/weldx/debug/test_unit_validator-0.1.0.yaml 71-77 in short -/
def exSch : Sch := .dict [("length_prop", .leaf "m"), ("nested_prop", .dict [("q2", .leaf "m**3")])]

/-- C65: an optional nested property that is missing is the reason of a `KeyError`, while other missing properties are accepted. -/
theorem C65_missing : ∃ (n m : Node), wxUnit exUnits (fun _ _ => false) n exSch = .crashed .keyError ∧
    wxUnit exUnits (fun _ _ => false) m exSch = .valid := by
  refine ⟨.map none [("length_prop", exQ "m")], .map none [("nested_prop", .map none [])], ?_, ?_⟩
  · simp [wxUnit, exSch, walk, walkItems, itemIn, item, Dict.get?, unitValidator, exQ, units, exUnits, Res.seq, Res.outcome, Res.ok]
  · simp [wxUnit, exSch, walk, walkItems, itemIn, item, Dict.get?, Res.seq, Res.outcome, Res.ok]

theorem itemIn_list (sub : String → String → Bool) (t : Option String) (l : List Node) (k : String) :
    ((∃ t', Node.str t' k ∈ l) → itemIn sub (.list t l) k = .error .typeError) ∧
      ((¬ ∃ t', Node.str t' k ∈ l) → itemIn sub (.list t l) k = .ok none) := by
  constructor
  · rintro ⟨t', h⟩
    unfold itemIn
    exact if_pos (List.any_eq_true.2 ⟨_, h, by simp⟩)
  · intro h
    unfold itemIn
    refine if_neg fun hc => h ?_
    obtain ⟨c, hm, hk⟩ := List.any_eq_true.1 hc
    cases c with
    | str t' s =>
      have hk : s = k := by simpa using hk
      exact ⟨t', hk ▸ hm⟩
    | _ => simp at hk

/-- **C65, refutation.** A list in the place of an object crashes the validation if it contains the name of the property as text, and is
accepted otherwise. -/
theorem C65_list (u : Units D) (sub : String → String → Bool) (t : Option String) (l : List Node) (k r : String) :
    ((∃ t', Node.str t' k ∈ l) → wxUnit u sub (.list t l) (.dict [(k, .leaf r)]) = .crashed .typeError) ∧
      ((¬ ∃ t', Node.str t' k ∈ l) → wxUnit u sub (.list t l) (.dict [(k, .leaf r)]) = .valid) := by
  refine ⟨fun h => ?_, fun h => ?_⟩
  · simp only [wxUnit, walk, walkItems, (itemIn_list sub t l k).1 h]
    rfl
  · simp only [wxUnit, walk, walkItems, (itemIn_list sub t l k).2 h]
    rfl

/-- a tree with nested properties fits, and a wrong unit is found -/
example : Fits (.map none [("length_prop", exQ "m"), ("nested_prop", .map none [("q2", exQ "s")])]) exSch ∧
    wxUnit exUnits (fun _ _ => false) (.map none [("length_prop", exQ "m"), ("nested_prop", .map none [("q2", exQ "s")])]) exSch =
      .invalid := by
  refine ⟨.dict (fun _ => .map none [("q2", exQ "s")]) ?_ ?_, ?_⟩
  · intro k d hk
    simp at hk
    simp [hk.1, Dict.get?]
  · intro k d hk
    simp at hk
    obtain ⟨-, rfl⟩ := hk
    exact .dict (fun _ => .null) (by intro k d h; simp at h) (by intro k d h; simp at h)
  · simp [wxUnit, exSch, walk, walkItems, itemIn, item, Dict.get?, unitValidator, exQ, units, exUnits, Res.seq, Res.outcome, Res.ok]

/-! ### Tags -/

theorem glob_nil (t : List Char) : glob [] t = true ↔ t = [] := by
  cases t <;> simp [glob]

theorem glob_lit {a : Char} (ha : a ≠ '*') (p t : List Char) : glob (a :: p) t = true ↔ ∃ t', t = a :: t' ∧ glob p t' = true := by
  cases t with
  | nil =>
    rw [glob] <;> simp_all
  | cons c t =>
    rw [glob]
    · simp only [Bool.and_eq_true, decide_eq_true_eq, List.cons.injEq]
      constructor
      · rintro ⟨rfl, h⟩; exact ⟨t, ⟨rfl, rfl⟩, h⟩
      · rintro ⟨t', ⟨rfl, rfl⟩, h⟩; exact ⟨rfl, h⟩
    · intro p' h; exact absurd h ha
    · intro h; exact absurd h ha

theorem glob_star {p : List Char} (hp : p.head? ≠ some '*') (t : List Char) :
    glob ('*' :: p) t = true ↔ ∃ a b, t = a ++ b ∧ '/' ∉ a ∧ glob p b = true := by
  induction t with
  | nil =>
    rw [glob]
    · constructor
      · intro h; exact ⟨[], [], rfl, by simp, h⟩
      · rintro ⟨a, b, hab, -, h⟩
        have := List.append_eq_nil_iff.1 hab.symm
        rw [this.2] at h; exact h
    · intro p' h; subst h; simp at hp
  | cons c t ih =>
    rw [glob]
    · simp only [Bool.or_eq_true, Bool.and_eq_true, decide_eq_true_eq, ih]
      constructor
      · rintro (h | ⟨hc, a, b, rfl, ha, h⟩)
        · exact ⟨[], c :: t, rfl, by simp, h⟩
        · refine ⟨c :: a, b, rfl, ?_, h⟩
          simp only [List.mem_cons, not_or]
          exact ⟨Ne.symm hc, ha⟩
      · rintro ⟨a, b, hab, ha, h⟩
        cases a with
        | nil => left; rw [List.nil_append] at hab; rw [hab]; exact h
        | cons x a =>
          simp only [List.cons_append, List.cons.injEq] at hab
          simp only [List.mem_cons, not_or] at ha
          right
          exact ⟨by rw [hab.1]; exact Ne.symm ha.1, a, b, hab.2, ha.2, h⟩
    · intro p' h; subst h; simp at hp

theorem glob_dstar (p t : List Char) : glob ('*' :: '*' :: p) t = true ↔ ∃ a b, t = a ++ b ∧ glob p b = true := by
  induction t with
  | nil =>
    rw [glob]
    constructor
    · intro h; exact ⟨[], [], rfl, h⟩
    · rintro ⟨a, b, hab, h⟩
      have := List.append_eq_nil_iff.1 hab.symm
      rw [this.2] at h; exact h
  | cons c t ih =>
    rw [glob]
    simp only [Bool.or_eq_true, ih]
    constructor
    · rintro (h | ⟨a, b, rfl, h⟩)
      · exact ⟨[], c :: t, rfl, h⟩
      · exact ⟨c :: a, b, rfl, h⟩
    · rintro ⟨a, b, hab, h⟩
      cases a with
      | nil => left; rw [List.nil_append] at hab; rw [hab]; exact h
      | cons x a =>
        simp only [List.cons_append, List.cons.injEq] at hab
        right; exact ⟨a, b, hab.2, h⟩

theorem glob_prefix {p : List Char} (hp : '*' ∉ p) (q t : List Char) : glob (p ++ q) t = true ↔ ∃ t', t = p ++ t' ∧ glob q t' = true := by
  induction p generalizing t with
  | nil => simp
  | cons a p ih =>
    simp only [List.mem_cons, not_or] at hp
    rw [List.cons_append, glob_lit (Ne.symm hp.1)]
    constructor
    · rintro ⟨t', rfl, h⟩
      obtain ⟨t'', rfl, h'⟩ := (ih hp.2 t').1 h
      exact ⟨t'', rfl, h'⟩
    · rintro ⟨t', rfl, h⟩
      exact ⟨p ++ t', rfl, (ih hp.2 _).2 ⟨t', rfl, h⟩⟩

/-- C65: a pattern without wildcards matches only itself; `base-1.2.*` matches all that begins with `base-1.2.` and has no further
slash; `base/**` matches all that begins with `base/`. -/
theorem C65_pattern (p t : List Char) (hp : '*' ∉ p) :
    (glob p t = true ↔ t = p) ∧
    (glob (p ++ ['*']) t = true ↔ ∃ s, t = p ++ s ∧ '/' ∉ s) ∧
    (glob (p ++ ['*', '*']) t = true ↔ ∃ s, t = p ++ s) := by
  refine ⟨?_, ?_, ?_⟩
  · have := glob_prefix hp [] t
    simp only [List.append_nil] at this
    rw [this]
    constructor
    · rintro ⟨t', rfl, h⟩; rw [(glob_nil t').1 h, List.append_nil]
    · rintro rfl; exact ⟨[], by simp, by simp [glob]⟩
  · rw [glob_prefix hp]
    constructor
    · rintro ⟨t', rfl, h⟩
      obtain ⟨a, b, rfl, ha, hb⟩ := (glob_star (by simp) t').1 h
      rw [(glob_nil b).1 hb, List.append_nil]
      exact ⟨a, rfl, ha⟩
    · rintro ⟨s, rfl, hs⟩
      exact ⟨s, rfl, (glob_star (by simp) s).2 ⟨s, [], by simp, hs, by simp [glob]⟩⟩
  · rw [glob_prefix hp]
    constructor
    · rintro ⟨t', rfl, -⟩; exact ⟨t', rfl⟩
    · rintro ⟨s, rfl⟩
      exact ⟨s, rfl, (glob_dstar [] s).2 ⟨s, [], by simp, by simp [glob]⟩⟩

/-- C65: patterns with a wildcard in the middle. -/
theorem C65_pattern_middle (p q t : List Char) (hp : '*' ∉ p) (hq : '*' ∉ q) :
    glob (p ++ '*' :: q) t = true ↔ ∃ s, t = p ++ s ++ q ∧ '/' ∉ s := by
  rw [glob_prefix hp]
  have hh : q.head? ≠ some '*' := by
    intro h
    exact hq (List.mem_of_head? h)
  constructor
  · rintro ⟨t', rfl, h⟩
    obtain ⟨a, b, rfl, ha, hb⟩ := (glob_star hh t').1 h
    rw [(C65_pattern q b hq).1] at hb
    rw [hb]
    exact ⟨a, by simp, ha⟩
  · rintro ⟨s, rfl, hs⟩
    exact ⟨s ++ q, by simp, (glob_star hh _).2 ⟨s, q, rfl, hs, ((C65_pattern q q hq).1).2 rfl⟩⟩

/-- the pattern of a schema: minor versions are accepted, other tags are not -/
example : glob "a/core-0.1.*".toList "a/core-0.1.7".toList = true ∧ glob "a/core-0.1.*".toList "a/core-0.10.0".toList = false := by
  constructor
  · have := (C65_pattern "a/core-0.1.".toList "a/core-0.1.7".toList (by decide)).2.1
    exact this.2 ⟨"7".toList, by decide, by decide⟩
  · rw [Bool.eq_false_iff]
    intro h
    obtain ⟨s, hs, -⟩ := (C65_pattern "a/core-0.1.".toList "a/core-0.10.0".toList (by decide)).2.1.1 h
    have := congrArg (fun l => l[10]?) hs
    simp at this

/-- C65: the tag of a node that the tag patterns are compared with: its own tag, or else the tag of its kind in YAML -/
theorem C65_tag (t : String) (s : String) (l : List Node) (m : List (String × Node)) :
    tagOf (.map (some t) m) = t ∧ tagOf (.list (some t) l) = t ∧ tagOf (.str (some t) s) = t ∧
      tagOf (.map none m) = "tag:yaml.org,2002:map" ∧ tagOf (.list none l) = "tag:yaml.org,2002:seq" ∧
      tagOf (.str none s) = "tag:yaml.org,2002:str" ∧ tagOf .null = "tag:yaml.org,2002:null" ∧
      tagOf .bool = "tag:yaml.org,2002:bool" ∧ tagOf .num = "tag:yaml.org,2002:float" :=
  ⟨rfl, rfl, rfl, rfl, rfl, rfl, rfl, rfl, rfl⟩

/-- C65: a mapping is valid for `wx_property_tag` exactly if the tag of every value matches one of the patterns. Other nodes and other
arguments are the reason of other exceptions. -/
theorem C65_property_tag (p : TagArg) (n : Node) :
    (propertyTag p n).outcome = .valid ↔
      (∃ ps, p = .one ps ∧ ∃ t m, n = .map t m ∧ ∀ e ∈ m, glob ps.toList (tagOf e.2).toList = true) ∨
      (∃ l, p = .many l ∧ ∃ t m, n = .map t m ∧ ∀ e ∈ m, ∃ q ∈ l, glob q.toList (tagOf e.2).toList = true) := by
  have hm : ∀ (p : TagArg) (t) (m : List (String × Node)), p ≠ .other → ((propertyTag p (.map t m)).outcome = .valid ↔
      ∀ e ∈ m, uriMatch p (tagOf e.2) = true) := by
    intro p t m hp
    have : propertyTag p (.map t m) = ⟨(m.filter fun e => !uriMatch p (tagOf e.2)).map fun _ => .wrongTag, none⟩ := by
      cases p <;> first | rfl | exact absurd rfl hp
    rw [this]
    cases hl : (m.filter fun e => !uriMatch p (tagOf e.2)) with
    | nil =>
      simp only [List.map_nil, Res.outcome, true_iff]
      intro e he
      have := List.filter_eq_nil_iff.1 hl e he
      simpa using this
    | cons x y =>
      simp only [List.map_cons, Res.outcome, reduceCtorEq, false_iff, not_forall]
      have hx : x ∈ m.filter fun e => !uriMatch p (tagOf e.2) := by rw [hl]; simp
      obtain ⟨h1, h2⟩ := List.mem_filter.1 hx
      exact ⟨x, h1, by simpa using h2⟩
  cases p with
  | other => simp [propertyTag, Res.outcome]
  | one ps =>
    cases n with
    | map t m =>
      rw [hm _ _ _ (by simp)]
      simp [uriMatch]
    | _ => simp [propertyTag, Res.outcome]
  | many l =>
    cases n with
    | map t m =>
      rw [hm _ _ _ (by simp)]
      simp [uriMatch]
    | _ => simp [propertyTag, Res.outcome]

/-- values without a tag have the tags of YAML types and do not match -/
example : (propertyTag (.one "asdf://weldx/time_series-0.1.*") (.map none [("a", .map none [])])).outcome = .invalid := by
  simp [propertyTag, uriMatch, tagOf, glob, Res.outcome]

end Weldx.Walk
