import Verif.Xarray.Units

/-!
# C83: units of coordinates

Specification: a coordinate means its values in a unit, or values without unit (`Means`). `quantify_coords` and `dequantify_coords` change
only the form of the attribute; a dictionary of quantities has the values and units of the coordinates.
-/

namespace Weldx.XUnits

variable {U V : Type}

/-! ### Specification -/

/-- the unit that an attribute stands for -/
inductive Stands (L : Units U) : UAttr U → U → Prop
  | unit {u} : Stands L (.unit u) u
  | text {s u} : L.parse s = some u → Stands L (.text s) u

/-- the coordinate has an attribute that stands for the unit `u` -/
def UnitIs (L : Units U) (c : Coord U V) (u : U) : Prop := ∃ x, c.units = some x ∧ Stands L x u

/-- the attribute is a text that is no unit -/
def BadUnit (L : Units U) (c : Coord U V) : Prop := ∃ s, c.units = some (.text s) ∧ L.parse s = none

/-- printing of units can be undone, and no unit is printed as the empty text (pint prints `dimensionless`) -/
structure Lawful (L : Units U) : Prop where
  back : ∀ u, L.parse (L.print u) = some u
  nonempty : ∀ u, L.print u ≠ ""

/-- coordinates agree in everything but the attribute `units` -/
def SameBody (c c' : Coord U V) : Prop := c'.dims = c.dims ∧ c'.vals = c.vals ∧ c'.index = c.index

/-! ### Auxiliary -/

theorem mapItems_ok {α β : Type} {f : α → Except Err β} {l r} (h : mapItems f l = .ok r) :
    List.Forall₂ (fun a b => a.1 = b.1 ∧ f a.2 = .ok b.2) l r := by
  induction l generalizing r with
  | nil => cases h; exact .nil
  | cons e t ih =>
    obtain ⟨k, a⟩ := e
    simp only [mapItems] at h
    cases ha : f a with
    | error e => rw [ha] at h; cases h
    | ok b =>
      rw [ha] at h
      cases ht : mapItems f t with
      | error e => simp only [ht] at h; cases h
      | ok r' =>
        simp only [ht] at h; cases h
        exact .cons ⟨rfl, ha⟩ (ih ht)

theorem mapItems_error {α β : Type} {f : α → Except Err β} {l} :
    (∃ e, mapItems f l = .error e) ↔ ∃ p ∈ l, ∃ e, f p.2 = .error e := by
  induction l with
  | nil => simp [mapItems]
  | cons p t ih =>
    obtain ⟨k, a⟩ := p
    simp only [mapItems, List.mem_cons, exists_eq_or_imp]
    cases ha : f a with
    | error e => simp
    | ok b =>
      cases ht : mapItems f t with
      | error e => rw [ht] at ih; simpa using ih.1 ⟨e, rfl⟩
      | ok r =>
        rw [ht] at ih
        simp only [reduceCtorEq, exists_false, false_or, false_iff] at ih ⊢
        simpa using ih

theorem mapItems_of_forall₂ {α β : Type} {f : α → Except Err β} {l r}
    (h : List.Forall₂ (fun (a : String × α) (b : String × β) => a.1 = b.1 ∧ f a.2 = .ok b.2) l r) : mapItems f l = .ok r := by
  induction h with
  | nil => rfl
  | @cons a b t r hab _ ih =>
    obtain ⟨k, a⟩ := a
    obtain ⟨k', b⟩ := b
    obtain ⟨rfl, hab⟩ := hab
    simp only at hab
    simp [mapItems, hab, ih]

theorem get_some {L : Units U} {x : UAttr U} {u : U} : L.get x = .ok (some u) ↔ Stands L x u := by
  cases x with
  | null => simp only [Units.get]; exact ⟨fun h => by simp at h, fun h => by cases h⟩
  | unit w =>
    simp only [Units.get]
    exact ⟨fun h => by cases h; exact .unit, fun h => by cases h; rfl⟩
  | text s =>
    simp only [Units.get]
    constructor
    · intro h
      cases hp : L.parse s with
      | none => simp [hp] at h
      | some w => simp only [hp] at h; cases h; exact .text hp
    · rintro (_ | hp); simp [hp]

theorem stepCoord_error {L : Units U} {g : U → UAttr U} {c : Coord U V} : (∃ e, stepCoord L g c = .error e) ↔ BadUnit L c := by
  unfold stepCoord BadUnit
  cases c.units with
  | none => simp
  | some x =>
    cases x with
    | null => simp [Units.get]
    | unit u => simp [Units.get]
    | text s => cases hp : L.parse s <;> simp [Units.get, hp]

theorem stepCoord_ok {L : Units U} {g : U → UAttr U} {c c' : Coord U V} (h : stepCoord L g c = .ok c') :
    SameBody c c' ∧ ((∃ u, UnitIs L c u ∧ c'.units = some (g u)) ∨ ((∀ u, ¬ UnitIs L c u) ∧ c' = c ∧ (c.units = none ∨ c.units = some .null))) := by
  unfold stepCoord at h
  cases hu : c.units with
  | none =>
    rw [hu] at h; cases h
    exact ⟨⟨rfl, rfl, rfl⟩, .inr ⟨by rintro u ⟨x, hx, -⟩; simp [hu] at hx, rfl, .inl rfl⟩⟩
  | some x =>
    rw [hu] at h
    simp only at h
    cases hg : L.get x with
    | error e => rw [hg] at h; cases h
    | ok o =>
      rw [hg] at h
      cases o with
      | some u =>
        cases h
        exact ⟨⟨rfl, rfl, rfl⟩, .inl ⟨u, ⟨x, hu, get_some.1 hg⟩, rfl⟩⟩
      | none =>
        cases h
        cases x with
        | unit w => simp [Units.get] at hg
        | text s => simp only [Units.get] at hg; split at hg <;> simp at hg
        | null =>
          refine ⟨⟨rfl, rfl, rfl⟩, .inr ⟨?_, rfl, .inr rfl⟩⟩
          rintro u ⟨x, hx, hs⟩
          rw [hu] at hx; cases hx; cases hs

theorem stands_unique {L : Units U} {x : UAttr U} {u w : U} (h : Stands L x u) (h' : Stands L x w) : u = w := by
  cases h with
  | unit => cases h'; rfl
  | text hp => cases h' with | text hq => rw [hp] at hq; exact Option.some.inj hq

/-! ### Quantities of coordinates -/

/-- **C83** (quantities of coordinates): there is one entry for each coordinate, with the same name and the same values; it is a quantity
with the unit of the coordinate if the attribute stands for a unit and is not the empty text, otherwise it has no unit. -/
theorem C83_quantities {L : Units U} {a : Arr U V} {q} (h : asQuantities L a = .ok q) :
    List.Forall₂ (fun (c : String × Coord U V) (e : String × Vals U V) => c.1 = e.1 ∧
      ((∃ u, UnitIs L c.2 u ∧ c.2.units ≠ some (.text "") ∧ e.2 = .quantity c.2.vals u) ∨
       ((c.2.units = some (.text "") ∨ ∀ u, ¬ UnitIs L c.2 u) ∧ e.2 = .plain c.2.vals))) a.coords q := by
  refine (mapItems_ok h).imp ?_
  rintro ⟨k, c⟩ ⟨k', v⟩ ⟨rfl, hv⟩
  refine ⟨rfl, ?_⟩
  simp only [coordVals] at hv
  simp only
  cases hu : c.units with
  | none =>
    rw [hu] at hv; cases hv
    exact .inr ⟨.inr (by rintro u ⟨x, hx, -⟩; simp [hu] at hx), rfl⟩
  | some x =>
    rw [hu] at hv
    cases x with
    | null =>
      cases hv
      exact .inr ⟨.inr (by rintro u ⟨x, hx, hs⟩; rw [hu] at hx; cases hx; cases hs), rfl⟩
    | unit w =>
      cases hv
      exact .inl ⟨w, ⟨_, hu, .unit⟩, by simp, rfl⟩
    | text s =>
      simp only at hv
      by_cases hs : s = ""
      · rw [if_pos hs] at hv; cases hv
        exact .inr ⟨.inl (by rw [hs]), rfl⟩
      · rw [if_neg hs] at hv
        cases hp : L.parse s with
        | none => simp [hp] at hv
        | some u =>
          simp only [hp] at hv; cases hv
          exact .inl ⟨u, ⟨_, hu, .text hp⟩, by simpa using hs, rfl⟩

/-- **C83** (quantities, failure): exactly if the unit of a coordinate is a text, not empty, that is no unit. -/
theorem C83_quantities_fails {L : Units U} {a : Arr U V} :
    (∃ e, asQuantities L a = .error e) ↔ ∃ p ∈ a.coords, BadUnit L p.2 ∧ p.2.units ≠ some (.text "") := by
  unfold asQuantities
  rw [mapItems_error]
  refine exists_congr fun p => and_congr_right fun _ => ?_
  unfold coordVals BadUnit
  cases p.2.units with
  | none => simp
  | some x =>
    cases x with
    | null => simp
    | unit u => simp
    | text s =>
      by_cases hs : s = ""
      · simp [hs]
      · cases hp : L.parse s <;> simp [hs, hp]

/-- **C83** (coordinates from quantities): the arguments for a new array have the names, values and units of the quantities, and a
quantity becomes a coordinate of the dimension with its name. -/
theorem C83_from_quantities (q : List (String × Vals U V)) :
    List.Forall₂ (fun (e : String × Vals U V) (c : String × Entry U V) => c.1 = e.1 ∧
      ((∃ v, e.2 = .plain v ∧ c.2 = .plain v) ∨ ∃ v u, e.2 = .quantity v u ∧ c.2 = .full e.1 v (.unit u))) q (fromQuantities q) := by
  unfold fromQuantities
  rw [List.forall₂_map_right_iff]
  refine List.forall₂_same.2 ?_
  rintro ⟨k, v⟩ -
  cases v with
  | plain v => exact ⟨rfl, .inl ⟨v, rfl, rfl⟩⟩
  | quantity v u => exact ⟨rfl, .inr ⟨v, u, rfl, rfl⟩⟩

/-- **C83** (indexes): the quantities of the indexes can only be requested if there is no index. -/
theorem C83_indexes (a : Arr U V) :
    indexesAsQuantities a = (if ∃ p ∈ a.coords, p.2.index = true then .error .attributeError else .ok []) := by
  unfold indexesAsQuantities
  by_cases h : ∃ p ∈ a.coords, p.2.index = true
  · rw [if_pos h, if_pos (List.any_eq_true.2 h)]
  · rw [if_neg h, if_neg (fun hn => h (List.any_eq_true.1 hn))]

/-! ### Form of the attribute -/

theorem quantifyCoords_ok {L : Units U} {a a' : Arr U V} (h : quantifyCoords L a = .ok a') :
    mapItems (stepCoord L .unit) a.coords = .ok a'.coords ∧ a'.dataUnit = a.dataUnit ∧ a'.attr = a.attr := by
  unfold quantifyCoords at h
  cases hm : mapItems (stepCoord L .unit) a.coords with
  | error e => rw [hm] at h; cases h
  | ok cs => rw [hm] at h; cases h; exact ⟨rfl, rfl, rfl⟩

theorem dequantifyCoords_ok {L : Units U} {a a' : Arr U V} (h : dequantifyCoords L a = .ok a') :
    mapItems (stepCoord L fun u => .text (L.print u)) a.coords = .ok a'.coords ∧ a'.dataUnit = a.dataUnit ∧ a'.attr = a.attr := by
  unfold dequantifyCoords at h
  cases hm : mapItems (stepCoord L fun u => .text (L.print u)) a.coords with
  | error e => rw [hm] at h; cases h
  | ok cs => rw [hm] at h; cases h; exact ⟨rfl, rfl, rfl⟩

/-- **C83** (`quantify_coords`): names, dimensions and values of the coordinates and the data are kept; each coordinate has the same unit
as before, and the attribute is a unit object. -/
theorem C83_quantify {L : Units U} {a a' : Arr U V} (h : quantifyCoords L a = .ok a') :
    a'.dataUnit = a.dataUnit ∧ a'.attr = a.attr ∧
    List.Forall₂ (fun (c c' : String × Coord U V) => c.1 = c'.1 ∧ SameBody c.2 c'.2 ∧
      (∀ u, UnitIs L c'.2 u ↔ UnitIs L c.2 u) ∧ (∀ s, c'.2.units ≠ some (.text s))) a.coords a'.coords := by
  obtain ⟨hm, h1, h2⟩ := quantifyCoords_ok h
  refine ⟨h1, h2, (mapItems_ok hm).imp ?_⟩
  rintro ⟨k, c⟩ ⟨k', c'⟩ ⟨hkk, hc⟩
  simp only at hkk hc ⊢
  subst hkk
  obtain ⟨hs, ⟨u, hu, hu'⟩ | ⟨hn, rfl, hx⟩⟩ := stepCoord_ok hc
  · refine ⟨rfl, hs, fun w => ?_, fun s => by simp [hu']⟩
    obtain ⟨x, hx, hxu⟩ := hu
    constructor
    · rintro ⟨y, hy, hyw⟩
      rw [hu'] at hy; cases hy; cases hyw
      exact ⟨x, hx, hxu⟩
    · rintro ⟨y, hy, hyw⟩
      rw [hx] at hy; cases hy
      rw [← stands_unique hxu hyw]
      exact ⟨_, hu', .unit⟩
  · exact ⟨rfl, hs, fun _ => Iff.rfl, fun s => by rcases hx with hx | hx <;> simp [hx]⟩

/-- **C83** (`dequantify_coords`): the same with texts. -/
theorem C83_dequantify {L : Units U} (hL : Lawful L) {a a' : Arr U V} (h : dequantifyCoords L a = .ok a') :
    a'.dataUnit = a.dataUnit ∧ a'.attr = a.attr ∧
    List.Forall₂ (fun (c c' : String × Coord U V) => c.1 = c'.1 ∧ SameBody c.2 c'.2 ∧
      (∀ u, UnitIs L c'.2 u ↔ UnitIs L c.2 u) ∧ (∀ u, c'.2.units ≠ some (.unit u))) a.coords a'.coords := by
  obtain ⟨hm, h1, h2⟩ := dequantifyCoords_ok h
  refine ⟨h1, h2, (mapItems_ok hm).imp ?_⟩
  rintro ⟨k, c⟩ ⟨k', c'⟩ ⟨hkk, hc⟩
  simp only at hkk hc ⊢
  subst hkk
  obtain ⟨hs, ⟨u, hu, hu'⟩ | ⟨hn, rfl, hx⟩⟩ := stepCoord_ok hc
  · refine ⟨rfl, hs, fun w => ?_, fun s => by simp [hu']⟩
    obtain ⟨x, hx, hxu⟩ := hu
    constructor
    · rintro ⟨y, hy, hyw⟩
      rw [hu'] at hy; cases hy
      cases hyw with
      | text hp =>
        rw [hL.back] at hp; cases hp
        exact ⟨x, hx, hxu⟩
    · rintro ⟨y, hy, hyw⟩
      rw [hx] at hy; cases hy
      rw [← stands_unique hxu hyw]
      exact ⟨_, hu', .text (hL.back u)⟩
  · exact ⟨rfl, hs, fun _ => Iff.rfl, fun s => by rcases hx with hx | hx <;> simp [hx]⟩

/-- **C83** (failure): both raise exactly if a coordinate has a text as unit that is no unit. -/
theorem C83_quantify_fails {L : Units U} {a : Arr U V} :
    ((∃ e, quantifyCoords L a = .error e) ↔ ∃ p ∈ a.coords, BadUnit L p.2) ∧
    ((∃ e, dequantifyCoords L a = .error e) ↔ ∃ p ∈ a.coords, BadUnit L p.2) := by
  constructor
  · have := mapItems_error (f := stepCoord L UAttr.unit) (l := a.coords)
    simp only [stepCoord_error] at this
    rw [← this]
    unfold quantifyCoords
    cases mapItems (stepCoord L UAttr.unit) a.coords <;> simp
  · have := mapItems_error (f := stepCoord L fun u => UAttr.text (L.print u)) (l := a.coords)
    simp only [stepCoord_error] at this
    rw [← this]
    unfold dequantifyCoords
    cases mapItems (stepCoord L fun u => UAttr.text (L.print u)) a.coords <;> simp

theorem coordVals_step {L : Units U} {g : U → UAttr U} (hg : ∀ u, Stands L (g u) u ∧ g u ≠ .text "") {c c' : Coord U V}
    (h : stepCoord L g c = .ok c') (hc : c.units ≠ some (.text "")) : coordVals L c' = coordVals L c := by
  have cv : ∀ (c : Coord U V) u, UnitIs L c u → c.units ≠ some (.text "") → coordVals L c = .ok (.quantity c.vals u) := by
    rintro c u ⟨x, hx, hs⟩ hne
    cases hs with
    | unit => simp [coordVals, hx]
    | @text s _ hp =>
      have : s ≠ "" := fun e => hne (by rw [hx, e])
      simp [coordVals, hx, this, hp]
  obtain ⟨⟨-, hv, -⟩, ⟨u, hu, hu'⟩ | ⟨-, rfl, -⟩⟩ := stepCoord_ok h
  · rw [cv c u hu hc, cv c' u ⟨_, hu', (hg u).1⟩ (by rw [hu']; simpa using (hg u).2), hv]
  · rfl

theorem coordVals_step_empty {L : Units U} {g : U → UAttr U} (hg : ∀ u, Stands L (g u) u ∧ g u ≠ .text "") {c c' : Coord U V}
    (h : stepCoord L g c = .ok c') (hc : c.units = some (.text "")) : coordVals L c' ≠ coordVals L c := by
  obtain ⟨⟨-, hv, -⟩, ⟨u, hu, hu'⟩ | ⟨hn, rfl, hx⟩⟩ := stepCoord_ok h
  · have h1 : coordVals L c = .ok (.plain c.vals) := by simp [coordVals, hc]
    obtain ⟨x, hx, hs⟩ : UnitIs L c' u := ⟨_, hu', (hg u).1⟩
    have hne := (hg u).2
    rw [h1]
    cases hgu : g u with
    | null => have := (hg u).1; rw [hgu] at this; cases this
    | unit w => simp [coordVals, hu', hgu]
    | text s =>
      rw [hgu] at hne
      have hs' : s ≠ "" := fun e => hne (by rw [e])
      have := (hg u).1
      rw [hgu] at this
      cases this with
      | text hp => simp [coordVals, hu', hgu, hs', hp]
  · rw [hc] at hx; simp at hx

theorem asQuantities_step {L : Units U} {g : U → UAttr U} (hg : ∀ u, Stands L (g u) u ∧ g u ≠ .text "") {cs cs' : List (String × Coord U V)}
    (h : List.Forall₂ (fun a b => a.1 = b.1 ∧ stepCoord L g a.2 = .ok b.2) cs cs') :
    (∃ q, mapItems (coordVals L) cs = .ok q ∧ (mapItems (coordVals L) cs' = .ok q ↔ ∀ p ∈ cs, p.2.units ≠ some (.text ""))) := by
  induction h with
  | nil => exact ⟨[], rfl, by simp [mapItems]⟩
  | @cons p p' t t' hp _ ih =>
    obtain ⟨k, c⟩ := p
    obtain ⟨k', c'⟩ := p'
    obtain ⟨rfl, hp⟩ := hp
    simp only at hp
    obtain ⟨q, hq, hq'⟩ := ih
    have hgood : ∃ v, coordVals L c = .ok v := by
      cases hcv : coordVals L c with
      | ok v => exact ⟨v, rfl⟩
      | error e =>
        exfalso
        have hb : BadUnit L c := by
          unfold coordVals at hcv
          cases hu : c.units with
          | none => simp [hu] at hcv
          | some x =>
            cases x with
            | null => simp [hu] at hcv
            | unit u => simp [hu] at hcv
            | text s =>
              rw [hu] at hcv
              simp only at hcv
              split at hcv
              · simp at hcv
              · cases hps : L.parse s with
                | none => exact ⟨s, hu, hps⟩
                | some u => simp [hps] at hcv
        obtain ⟨e', he'⟩ := (stepCoord_error (L := L) (g := g)).2 hb
        rw [hp] at he'; cases he'
    obtain ⟨v, hv⟩ := hgood
    refine ⟨(k, v) :: q, by simp [mapItems, hv, hq], ?_⟩
    by_cases hc : c.units = some (.text "")
    · have hne := coordVals_step_empty hg hp hc
      constructor
      · intro hm
        exfalso
        have := mapItems_ok hm
        cases this with
        | cons h1 h2 => exact hne (by rw [hv]; exact h1.2)
      · intro hall
        exact absurd hc (hall (k, c) (by simp))
    · have heq := coordVals_step hg hp hc
      simp only [mapItems, heq, hv, List.mem_cons, forall_eq_or_imp]
      constructor
      · intro hm
        refine ⟨hc, hq'.1 ?_⟩
        cases hmt : mapItems (coordVals L) t' with
        | error e => simp [hmt] at hm
        | ok r => simp only [hmt, Except.ok.injEq, List.cons.injEq, true_and] at hm; rw [hm]
      · rintro ⟨-, hall⟩
        rw [hq'.2 hall]

/-- **C83** (both forms have the same quantities, `quantify_coords`): the dictionary of quantities is the same as before if and only if
no coordinate has the empty text as unit. -/
theorem C83_quantify_quantities {L : Units U} {a a' : Arr U V} (h : quantifyCoords L a = .ok a') :
    asQuantities L a' = asQuantities L a ↔ ∀ p ∈ a.coords, p.2.units ≠ some (.text "") := by
  obtain ⟨hm, -, -⟩ := quantifyCoords_ok h
  obtain ⟨q, hq, hq'⟩ := asQuantities_step (g := .unit) (fun u => ⟨.unit, by simp⟩) (mapItems_ok hm)
  unfold asQuantities
  rw [hq, hq']

/-- **C83** (both forms have the same quantities, `dequantify_coords`) -/
theorem C83_dequantify_quantities {L : Units U} (hL : Lawful L) {a a' : Arr U V} (h : dequantifyCoords L a = .ok a') :
    asQuantities L a' = asQuantities L a ↔ ∀ p ∈ a.coords, p.2.units ≠ some (.text "") := by
  obtain ⟨hm, -, -⟩ := dequantifyCoords_ok h
  obtain ⟨q, hq, hq'⟩ := asQuantities_step (g := fun u => .text (L.print u))
    (fun u => ⟨.text (hL.back u), by simpa using hL.nonempty u⟩) (mapItems_ok hm)
  unfold asQuantities
  rw [hq, hq']

/-! ### The unit of the data -/

/-- **C83** (`units`): the unit of a quantity; the attribute counts only if the data is no quantity. -/
theorem C83_units (L : Units U) (a : Arr U V) (u : U) :
    units L a = .ok (some u) ↔ a.dataUnit = some u ∨ (a.dataUnit = none ∧ ∃ x, a.attr = some x ∧ Stands L x u) := by
  unfold units
  cases a.dataUnit with
  | some w => simp
  | none =>
    cases a.attr with
    | none => simp
    | some x => simp [get_some]

/-- **C83** (`units`, none): there is no unit exactly if the data is no quantity and the attribute is missing or `None`. -/
theorem C83_units_none (L : Units U) (a : Arr U V) :
    units L a = .ok none ↔ a.dataUnit = none ∧ (a.attr = none ∨ a.attr = some .null) := by
  unfold units
  cases a.dataUnit with
  | some w => simp
  | none =>
    cases a.attr with
    | none => simp
    | some x =>
      cases x with
      | null => simp [Units.get]
      | unit u => simp [Units.get]
      | text s => cases hp : L.parse s <;> simp [Units.get, hp]

/-! ### Examples and counterexamples -/

/-- units `mm`, and no unit written as empty text or `dimensionless`; `true` is the millimetre -/
def exL : Units Bool :=
  ⟨fun s => if s = "mm" then some true else if s = "" ∨ s = "dimensionless" then some false else none, fun b => if b then "mm" else "dimensionless"⟩

example : Lawful exL := ⟨fun u => by cases u <;> decide, fun u => by cases u <;> decide⟩

/-- coordinates with a unit text, a unit object and without unit -/
def exA : Arr Bool (List ℕ) :=
  ⟨[("x", ⟨["x"], [1, 2], some (.text "mm"), true⟩), ("y", ⟨["y"], [3], some (.unit true), true⟩), ("n", ⟨["x"], [5, 6], none, false⟩)], none,
    some (.text "mm")⟩

example : asQuantities exL exA = .ok [("x", .quantity [1, 2] true), ("y", .quantity [3] true), ("n", .plain [5, 6])] := by decide
example : ∃ a', quantifyCoords exL exA = .ok a' ∧ asQuantities exL a' = asQuantities exL exA := ⟨_, rfl, rfl⟩
example : ∃ a', dequantifyCoords exL exA = .ok a' ∧ asQuantities exL a' = asQuantities exL exA := ⟨_, rfl, rfl⟩
example : units exL exA = .ok (some true) := by decide
example : ∃ p ∈ (⟨[("x", ⟨["x"], [1], some (.text "foo"), true⟩)], none, none⟩ : Arr Bool (List ℕ)).coords, BadUnit exL p.2 :=
  ⟨_, List.mem_singleton.2 rfl, "foo", rfl, by decide⟩

/-- Changing the form of the attribute changes the quantities: a coordinate with the empty text as unit is an array without unit before
and a dimensionless quantity afterwards. -/
theorem C83_empty_counterexample : ¬ ∀ (L : Units Bool) (a a' : Arr Bool ℕ), Lawful L → quantifyCoords L a = .ok a' →
    asQuantities L a' = asQuantities L a := by
  intro hall
  have := hall exL ⟨[("x", ⟨["x"], 1, some (.text ""), true⟩)], none, none⟩ _ ⟨fun u => by cases u <;> decide, fun u => by cases u <;> decide⟩ rfl
  revert this
  decide

/-- The quantities of the indexes are not available: the request raises for every array with an index. -/
theorem C83_indexes_counterexample : ¬ ∀ (a : Arr Bool (List ℕ)), ∃ q, indexesAsQuantities a = .ok q := by
  intro hall
  obtain ⟨q, hq⟩ := hall exA
  rw [C83_indexes, if_pos ⟨_, List.mem_cons_self, rfl⟩] at hq
  cases hq

end Weldx.XUnits
