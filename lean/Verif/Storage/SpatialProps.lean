import Mathlib.Tactic.FieldSimp
import Mathlib.Tactic.Ring
import Verif.Storage.Spatial

/-!
# Spatial data: properties (C78)

Specification: `Transposes` (the transposition of xarray), `SData.Ok`, `SData.Same` (the comparison of two objects).
-/

namespace Weldx.Sto

variable {F U A : Type}

/-! ## Specification -/

/-- `transpose(..., "n", "c")` moves the two dimensions to the end, keeps unit and attributes, and does nothing if they are there -/
structure Transposes (T : XArr F U A → XArr F U A) : Prop where
  last : ∀ a, "n" ∈ a.main.dims → "c" ∈ a.main.dims → ∃ pre, (T a).main.dims = pre ++ ["n", "c"]
  units : ∀ a, (T a).main.units = a.main.units
  attrs : ∀ a, (T a).main.attrs = a.main.attrs
  same : ∀ a pre, a.main.dims = pre ++ ["n", "c"] → T a = a

/-- the objects made by the constructor -/
structure SData.Ok (isLen : U → Bool) (s : SData F U A) : Prop where
  array : s.coordinates.Ok
  dims : ∃ pre, s.coordinates.main.dims = pre ++ ["n", "c"]
  units : ∃ u, s.coordinates.main.units = some u ∧ isLen u = true
  triangles : ∀ a, s.triangles = some a → ∃ k, a.shape = [k, 3]

/-- values of type float -/
def Floats (a : NdArr F) : Prop := ∀ c ∈ a.cells, ∃ x, c = .float x

/-- the comparison of two objects with `compare_nested`: arrays are compared by their values -/
def SData.Same (s t : SData F U A) : Prop := s.coordinates.Identical t.coordinates ∧
  s.triangles.map (fun a => (a.shape, a.cells)) = t.triangles.map (fun a => (a.shape, a.cells)) ∧ s.attributes = t.attributes

/-- the object after storage -/
def SData.restored (ofInt : ℤ → F) (s : SData F U A) : SData F U A :=
  ⟨if s.coordinates.main.data.shape.length ≤ 2 then
      ⟨none, ⟨["n", "c"], s.coordinates.main.data.toFloat ofInt, s.coordinates.main.units, []⟩, [xyz]⟩
    else s.coordinates.restored,
   s.triangles.map (fun a => { a with dtype := .uint 64 }), s.attributes⟩

/-! ## Creation -/

theorem checkTriangles_ok {a b : NdArr F} (h : checkTriangles a = .ok b) : b = a ∧ ∃ k, a.shape = [k, 3] := by
  unfold checkTriangles at h
  cases hk : a.shape.getLast? with
  | none => rw [hk] at h; cases h
  | some k =>
    rw [hk] at h
    simp only at h
    by_cases h3 : k = 3
    · subst h3
      by_cases h2 : a.shape.length = 2
      · simp only [ne_eq, not_true_eq_false, if_false, h2] at h
        cases h
        refine ⟨rfl, ?_⟩
        revert hk h2
        generalize a.shape = sh
        intro hk h2
        match sh, h2, hk with
        | [x, y], _, hk => exact ⟨x, by simpa using hk⟩
      · simp only [ne_eq, not_true_eq_false, if_false, h2, not_false_eq_true, if_true] at h
        cases h
    · simp only [ne_eq, h3, not_false_eq_true, if_true] at h
      cases h

theorem initTriangles_ok {t : Option (TriIn F)} {r : Option (NdArr F)} (h : initTriangles t = .ok r) :
    ∀ a, r = some a → ∃ k, a.shape = [k, 3] := by
  intro a ha
  subst ha
  cases t with
  | none => cases h
  | some t =>
    simp only [initTriangles] at h
    cases hc : checkTriangles t.toArr with
    | error e => rw [hc] at h; cases h
    | ok b =>
      rw [hc] at h
      cases h
      obtain ⟨rfl, hk⟩ := checkTriangles_ok hc
      exact hk

theorem finish_ok {isLen : U → Bool} {a : XArr F U A} {u : U} (hu : a.main.units = some u) (hl : isLen u = true)
    {tri : Option (TriIn F)} {r : Option (NdArr F)} (ht : initTriangles tri = .ok r) (attributes : Option (List (String × NdArr F))) :
    finish isLen a tri attributes = .ok ⟨a, r, attributes⟩ := by
  simp only [finish, hu, hl, if_true, ht]
  rfl

theorem transposeNC_ok {T : XArr F U A → XArr F U A} (hT : Transposes T) {a : XArr F U A} {pre : List String}
    (h : a.main.dims = pre ++ ["n", "c"]) : transposeNC T a = .ok a := by
  have hn : "n" ∈ a.main.dims := by rw [h]; simp
  have hc : "c" ∈ a.main.dims := by rw [h]; simp
  simp only [transposeNC, hn, hc, and_self, if_true, hT.same a pre h]

/-- **C78.** Spatial data that can be created has the dimensions `n` and `c` at the end, a length as unit, and triangles with three points. -/
theorem C78_created {isLen : U → Bool} {ofInt : ℤ → F} {T : XArr F U A → XArr F U A} (hT : Transposes T) {c : CoordIn F U A}
    {tri : Option (TriIn F)} {attributes : Option (List (String × NdArr F))} {time : Option (XVar F U A)} {s : SData F U A}
    (h : create isLen ofInt T c tri attributes time = .ok s) :
    (∃ pre, s.coordinates.main.dims = pre ++ ["n", "c"]) ∧ (∃ u, s.coordinates.main.units = some u ∧ isLen u = true) ∧
      (∀ a, s.triangles = some a → ∃ k, a.shape = [k, 3]) ∧ s.attributes = attributes := by
  simp only [create, bind, Except.bind] at h
  cases ha : initCoords ofInt c time with
  | error e => rw [ha] at h; cases h
  | ok a =>
    rw [ha] at h
    cases hb : transposeNC T a with
    | error e => simp only [hb] at h; cases h
    | ok b =>
      simp only [hb] at h
      have hd : ∃ pre, b.main.dims = pre ++ ["n", "c"] := by
        unfold transposeNC at hb
        split at hb
        · rename_i hc
          cases hb
          exact hT.last _ hc.1 hc.2
        · cases hb
      unfold finish at h
      cases hu : b.main.units with
      | none => simp only [hu] at h; cases h
      | some u =>
        simp only [hu] at h
        by_cases hl : isLen u = true
        · rw [if_pos hl] at h
          cases htr : initTriangles tri with
          | error e => rw [htr] at h; cases h
          | ok tr =>
            rw [htr] at h
            cases h
            exact ⟨hd, ⟨u, hu, hl⟩, initTriangles_ok htr, rfl⟩
        · rw [if_neg hl] at h
          cases h

/-- **C78, refutation.** Coordinates with a wrong unit are rejected, but with an `AttributeError` instead of the documented
`DimensionalityError`, unless the array has an attribute `units`. -/
theorem C78_wrong_unit (isLen : U → Bool) (ofInt : ℤ → F) {T : XArr F U A → XArr F U A} (hT : Transposes T) {a : XArr F U A}
    (hn : "n" ∈ a.main.dims) (hc : "c" ∈ a.main.dims) {u : U} (hu : a.main.units = some u) (hl : isLen u = false)
    (tri : Option (TriIn F)) (attributes : Option (List (String × NdArr F))) (time : Option (XVar F U A)) :
    create isLen ofInt T (.array a) tri attributes time =
      .error (if "units" ∈ Dict.keys a.main.attrs then .dimensionality else .attribute) := by
  simp only [create, initCoords, finish, bind, Except.bind, transposeNC, hn, hc, and_self, if_true, hT.units, hu, hl, hT.attrs]
  rfl

/-- **C78.** Coordinates without a unit are rejected. -/
theorem C78_no_unit (isLen : U → Bool) (ofInt : ℤ → F) {T : XArr F U A → XArr F U A} (hT : Transposes T) {a : XArr F U A}
    (hu : a.main.units = none) (tri : Option (TriIn F)) (attributes : Option (List (String × NdArr F))) (time : Option (XVar F U A)) :
    ∃ e, create isLen ofInt T (.array a) tri attributes time = .error e := by
  simp only [create, initCoords, finish, bind, Except.bind, transposeNC]
  by_cases h : "n" ∈ a.main.dims ∧ "c" ∈ a.main.dims
  · simp only [h, and_self, if_true, hT.units, hu]
    exact ⟨_, rfl⟩
  · simp only [h, if_false]
    exact ⟨_, rfl⟩

/-! ## Storage -/

theorem shape_two {s : List ℕ} (h2 : s.length = 2) (h3 : s.getLast? = some 3) : ∃ k, s = [k, 3] := by
  match s, h2, h3 with
  | [x, y], _, hk => exact ⟨x, by simpa using hk⟩

theorem vector3d_two (ofInt : ℤ → F) {a : NdArr F} {k : ℕ} (h : a.shape = [k, 3]) (u : Option U) :
    vector3d (A := A) ofInt a u none = .ok ⟨none, ⟨["n", "c"], a.toFloat ofInt, u, []⟩, [xyz]⟩ := by
  obtain ⟨d, s, l⟩ := a
  subst h
  rfl

theorem initTriangles_list {t : Option (NdArr F)} (h : ∀ a, t = some a → ∃ k, a.shape = [k, 3]) :
    initTriangles (t.map .list) = .ok (t.map fun a => { a with dtype := .uint 64 }) := by
  cases t with
  | none => rfl
  | some a =>
    obtain ⟨k, hk⟩ := h a rfl
    obtain ⟨d, s, l⟩ := a
    subst hk
    rfl

theorem SData.Ok.length {isLen : U → Bool} {s : SData F U A} (h : s.Ok isLen) : 2 ≤ s.coordinates.main.data.shape.length := by
  obtain ⟨pre, hp⟩ := h.dims
  have := h.array.main.2
  rw [hp, List.length_append] at this
  simp only [List.length_cons, List.length_nil] at this
  omega

theorem store_block {a : NdArr F} (h : a.shape ≠ []) : store a = .block a := by
  obtain ⟨d, s, l⟩ := a
  cases s with
  | nil => exact (h rfl).elim
  | cons n s => rfl

theorem validTriangles_iff {t : Option (NdArr F)} (h : ∀ a, t = some a → ∃ k, a.shape = [k, 3]) :
    validTriangles t = true ↔ ∀ a, t = some a → a.dtype = .uint 32 ∨ a.dtype = .uint 64 := by
  cases t with
  | none => simp [validTriangles]
  | some a =>
    obtain ⟨k, hk⟩ := h a rfl
    simp [validTriangles, hk]

/-- **C78.** Spatial data can be written exactly if the points have three components, the triangles are unsigned integers of 32 or 64 bits,
and an array with more than two dimensions is storable. -/
theorem C78_write_iff {isLen : U → Bool} {s : SData F U A} (h : s.Ok isLen) :
    (∃ t, writeSpatial s = .ok t) ↔ s.coordinates.main.data.shape.getLast? = some 3 ∧
      (∀ a, s.triangles = some a → a.dtype = .uint 32 ∨ a.dtype = .uint 64) ∧
      (3 ≤ s.coordinates.main.data.shape.length → s.coordinates.Storable) := by
  obtain ⟨u, hu, _⟩ := h.units
  have hlen := h.length
  have hv := validTriangles_iff h.triangles
  unfold writeSpatial
  by_cases h2 : s.coordinates.main.data.shape.length ≤ 2
  · have hne : s.coordinates.main.data.shape ≠ [] := by
      intro h0
      rw [h0] at hlen
      simp at hlen
    have e : writeQty ⟨s.coordinates.main.data, u⟩ = .ok (.block s.coordinates.main.data, u) := by
      simp [writeQty, store_block hne, Stored.valid]
    have h3 : ¬ 3 ≤ s.coordinates.main.data.shape.length := by omega
    simp only [h2, if_true, hu, e, Except.map, bind, Except.bind, hv, h3, false_imp_iff, and_true]
    split
    · rename_i hc
      exact ⟨fun _ => hc, fun _ => ⟨_, rfl⟩⟩
    · rename_i hc
      refine ⟨?_, fun h => (hc h).elim⟩
      rintro ⟨t, ht⟩
      cases ht
  · have h3 : 3 ≤ s.coordinates.main.data.shape.length := by omega
    have hw := (C77_array h.array).1
    simp only [h2, if_false, h3, true_imp_iff, ← hw]
    cases hx : writeArr s.coordinates with
    | error e =>
      simp only [Except.map, bind, Except.bind]
      constructor
      · rintro ⟨t, ht⟩
        cases ht
      · rintro ⟨_, _, t, ht⟩
        cases ht
    | ok t =>
      simp only [Except.map, bind, Except.bind, hv]
      split
      · rename_i hc
        exact ⟨fun _ => ⟨hc.1, hc.2, _, rfl⟩, fun _ => ⟨_, rfl⟩⟩
      · rename_i hc
        refine ⟨?_, fun h => (hc ⟨h.1, h.2.1⟩).elim⟩
        rintro ⟨t, ht⟩
        cases ht

/-- **C78.** What has been written can be read. The result has the same points, unit, triangles, and attributes. Arrays with two dimensions
get the default coordinates, others keep theirs. -/
theorem C78_read {isLen : U → Bool} (ofInt : ℤ → F) {T : XArr F U A → XArr F U A} (hT : Transposes T) {s : SData F U A} (h : s.Ok isLen)
    {t : SpTree F U A} (ht : writeSpatial s = .ok t) : readSpatial isLen ofInt T t = .ok (s.restored ofInt) := by
  obtain ⟨u, hu, hl⟩ := h.units
  have hlen := h.length
  have hg := ((C78_write_iff h).1 ⟨t, ht⟩).1
  unfold writeSpatial at ht
  by_cases h2 : s.coordinates.main.data.shape.length ≤ 2
  · have hne : s.coordinates.main.data.shape ≠ [] := by
      intro h0
      rw [h0] at hlen
      simp at hlen
    have e : writeQty ⟨s.coordinates.main.data, u⟩ = .ok (.block s.coordinates.main.data, u) := by
      simp [writeQty, store_block hne, Stored.valid]
    obtain ⟨k, hk⟩ := shape_two (by omega) hg
    simp only [h2, if_true, hu, e, Except.map, bind, Except.bind] at ht
    split at ht
    · cases ht
      have hv := vector3d_two (A := A) ofInt hk (some u)
      have hsame := transposeNC_ok hT (a := ⟨none, ⟨["n", "c"], s.coordinates.main.data.toFloat ofInt, some u, []⟩, [xyz]⟩)
        (pre := []) rfl
      simp only [readSpatial, create, initCoords, bind, Except.bind, readQty, Stored.toArr, hv, lift, hsame, SData.restored, h2, if_true, hu]
      exact finish_ok rfl hl (initTriangles_list h.triangles) _
    · cases ht
  · have hx : ∃ a, writeArr s.coordinates = .ok a := by
      cases hx : writeArr s.coordinates with
      | error e => simp [h2, hx, Except.map, bind, Except.bind] at ht
      | ok a => exact ⟨a, rfl⟩
    obtain ⟨a, ha⟩ := hx
    simp only [h2, if_false, ha, Except.map, bind, Except.bind] at ht
    split at ht
    · cases ht
      obtain ⟨pre, hp⟩ := h.dims
      have hd : s.coordinates.restored.main.dims = pre ++ ["n", "c"] := hp
      have hu' : s.coordinates.restored.main.units = some u := hu
      simp only [readSpatial, create, initCoords, bind, Except.bind, (C77_array h.array).2 a ha, lift, Except.map, transposeNC_ok hT hd,
        SData.restored, h2, if_false]
      exact finish_ok hu' hl (initTriangles_list h.triangles) _
    · cases ht

theorem toFloat_floats (ofInt : ℤ → F) {a : NdArr F} (h : Floats a) : (a.toFloat ofInt).cells = a.cells := by
  unfold NdArr.toFloat
  simp only
  conv_rhs => rw [← List.map_id a.cells]
  refine List.map_congr_left ?_
  intro c hc
  obtain ⟨x, rfl⟩ := h c hc
  rfl

/-- **C78.** The object that is read equals the one that was written exactly if the array has no name and, if it has two dimensions, neither
attributes nor other coordinates than `x, y, z` along `c`. -/
theorem C78_same {isLen : U → Bool} (ofInt : ℤ → F) {T : XArr F U A → XArr F U A} (hT : Transposes T) {s : SData F U A} (h : s.Ok isLen)
    (hf : Floats s.coordinates.main.data) {t : SpTree F U A} (ht : writeSpatial s = .ok t) :
    ∃ r, readSpatial isLen ofInt T t = .ok r ∧ (r.Same s ↔ s.coordinates.name = none ∧
      (s.coordinates.main.data.shape.length = 2 → s.coordinates.main.attrs = [] ∧
        (∀ k, k ∈ Dict.keys s.coordinates.coords ↔ k = "c") ∧
        ∀ v, Dict.get? s.coordinates.coords "c" = some v → v.Identical (xyz (F := F) (U := U) (A := A)).2)) := by
  refine ⟨_, C78_read ofInt hT h ht, ?_⟩
  have hlen := h.length
  have ht' : (s.restored ofInt).triangles.map (fun a => (a.shape, a.cells)) = s.triangles.map (fun a => (a.shape, a.cells)) := by
    simp only [SData.restored, Option.map_map]
    rfl
  have ha : (s.restored ofInt).attributes = s.attributes := rfl
  simp only [SData.Same, ht', ha, and_true]
  by_cases h2 : s.coordinates.main.data.shape.length ≤ 2
  · have h2' : s.coordinates.main.data.shape.length = 2 := by omega
    have hd : s.coordinates.main.dims = ["n", "c"] := by
      obtain ⟨pre, hp⟩ := h.dims
      have := h.array.main.2
      rw [hp, List.length_append, h2'] at this
      simp only [List.length_cons, List.length_nil] at this
      have : pre = [] := List.length_eq_zero_iff.1 (by omega)
      rw [hp, this]
      rfl
    have hr : (s.restored ofInt).coordinates = ⟨none, ⟨["n", "c"], s.coordinates.main.data.toFloat ofInt, s.coordinates.main.units, []⟩, [xyz]⟩ := by
      simp only [SData.restored, h2, if_true]
    rw [hr]
    simp only [XArr.Identical, XVar.Identical, hd, toFloat_floats ofInt hf, h2', true_imp_iff]
    have hk : ∀ k, k ∈ Dict.keys [(xyz : String × XVar F U A)] ↔ k = "c" := by
      intro k
      simp [Dict.keys, xyz]
    have hg : ∀ k (v : XVar F U A), Dict.get? [xyz] k = some v ↔ k = "c" ∧ v = xyz.2 := by
      intro k v
      by_cases hh : k = "c"
      · subst hh
        simp [xyz, Dict.get?, eq_comm]
      · have : ¬ "c" = k := fun e => hh e.symm
        simp [xyz, Dict.get?, hh, this]
    simp only [hk, hg]
    constructor
    · rintro ⟨h1, ⟨_, _, _, _, h3⟩, h4, h5⟩
      refine ⟨h1.symm, h3.symm, fun k => (h4 k).symm, ?_⟩
      intro v hv
      obtain ⟨e1, e2, e3, e4, e5⟩ := h5 "c" _ v ⟨rfl, rfl⟩ hv
      exact ⟨e1.symm, e2.symm, e3.symm, e4.symm, e5.symm⟩
    · rintro ⟨h1, h3, h4, h5⟩
      refine ⟨h1.symm, ⟨trivial, rfl, trivial, trivial, h3.symm⟩, fun k => (h4 k).symm, ?_⟩
      rintro k v w ⟨rfl, rfl⟩ hw
      obtain ⟨e1, e2, e3, e4, e5⟩ := h5 w hw
      exact ⟨e1.symm, e2.symm, e3.symm, e4.symm, e5.symm⟩
  · have h2' : s.coordinates.main.data.shape.length ≠ 2 := by omega
    have hx : ∃ a, writeArr s.coordinates = .ok a := by
      rw [(C77_array h.array).1]
      exact ((C78_write_iff h).1 ⟨t, ht⟩).2.2 (by omega)
    obtain ⟨a, ha⟩ := hx
    obtain ⟨b, hb, hi⟩ := C77_array_identical h.array ha
    rw [(C77_array h.array).2 a ha] at hb
    cases hb
    simp only [SData.restored, h2, if_false, hi, h2', false_imp_iff, and_true]

/-- **C78, refutation.** Triangles that are given as an array of signed integers are accepted, but they can not be written. -/
theorem C78_signed_triangles {isLen : U → Bool} {s : SData F U A} (h : s.Ok isLen) {a : NdArr F} (ha : s.triangles = some a) {b : ℕ}
    (hb : a.dtype = .int b) : ∀ t, writeSpatial s ≠ .ok t := by
  intro t ht
  have := ((C78_write_iff h).1 ⟨t, ht⟩).2.1 a ha
  rw [hb] at this
  rcases this with h | h <;> cases h

/-- **C78.** Files of version 0.1.0 contain millimetres. -/
theorem C78_legacy {isLen : U → Bool} (ofInt : ℤ → F) {T : XArr F U A → XArr F U A} (hT : Transposes T) {mm : U} (hm : isLen mm = true)
    {a : NdArr F} {k : ℕ} (ha : a.shape = [k, 3]) {tri : Option (NdArr F)} (htri : ∀ a, tri = some a → ∃ k, a.shape = [k, 3])
    (attributes : Option (List (String × NdArr F))) :
    ∃ s, readLegacy isLen ofInt T mm a tri attributes = .ok s ∧ s.coordinates.main.units = some mm ∧
      s.coordinates.main.data = a.toFloat ofInt ∧ s.triangles = tri.map (fun a => { a with dtype := .uint 64 }) ∧
      s.attributes = attributes := by
  have hv := vector3d_two (A := A) ofInt ha (some mm)
  have hsame := transposeNC_ok hT (a := ⟨none, ⟨["n", "c"], a.toFloat ofInt, some mm, []⟩, [xyz]⟩) (pre := []) rfl
  refine ⟨⟨⟨none, ⟨["n", "c"], a.toFloat ofInt, some mm, []⟩, [xyz]⟩, tri.map (fun a => { a with dtype := .uint 64 }), attributes⟩,
    ?_, rfl, rfl, rfl, rfl⟩
  simp only [readLegacy, create, initCoords, bind, Except.bind, hv, lift, hsame]
  exact finish_ok rfl hm (initTriangles_list htri) _

/-! ## Creation from numbers -/

/-- the value of `astype(float)` for one entry -/
def FloatOf (ofInt : ℤ → F) (c d : Cell F) : Prop :=
  (∀ x, c = .float x → d = .float x) ∧ (∀ z, c = .int z → d = .float (ofInt z)) ∧
    (c = .bool true → d = .float (ofInt 1)) ∧ (c = .bool false → d = .float (ofInt 0))

theorem floatOf (ofInt : ℤ → F) (c : Cell F) : FloatOf ofInt c (c.toFloat ofInt) := by
  refine ⟨?_, ?_, ?_, ?_⟩
  · rintro x rfl; rfl
  · rintro z rfl; rfl
  · rintro rfl; rfl
  · rintro rfl; rfl

/-- **C78.** Points that are given as an array of numbers are stored as floats of 64 bits with the same values, with the names `x`, `y`, `z` of
the components. -/
theorem C78_numbers {isLen : U → Bool} (ofInt : ℤ → F) {T : XArr F U A → XArr F U A} (hT : Transposes T) {u : U} (hu : isLen u = true)
    {a : NdArr F} {k : ℕ} (ha : a.shape = [k, 3]) {tri : Option (TriIn F)} {tri' : Option (NdArr F)} (htri : initTriangles tri = .ok tri')
    (attributes : Option (List (String × NdArr F))) :
    ∃ s, create isLen ofInt T (.raw a (some u)) tri attributes none = .ok s ∧ s.coordinates.main.dims = ["n", "c"] ∧
      s.coordinates.main.data.dtype = .float 64 ∧ s.coordinates.main.data.shape = [k, 3] ∧
      List.Forall₂ (FloatOf ofInt) a.cells s.coordinates.main.data.cells ∧ s.coordinates.main.units = some u ∧
      Dict.keys s.coordinates.coords = ["c"] ∧
      (∀ v, Dict.get? s.coordinates.coords "c" = some v → v.dims = ["c"] ∧ v.data.cells = [.str "x", .str "y", .str "z"]) ∧
      s.triangles = tri' ∧ s.attributes = attributes := by
  have hv := vector3d_two (A := A) ofInt ha (some u)
  have hsame := transposeNC_ok hT (a := ⟨none, ⟨["n", "c"], a.toFloat ofInt, some u, []⟩, [xyz]⟩) (pre := []) rfl
  refine ⟨⟨⟨none, ⟨["n", "c"], a.toFloat ofInt, some u, []⟩, [xyz]⟩, tri', attributes⟩, ?_, rfl, rfl, ha, ?_, rfl, rfl, ?_, rfl, rfl⟩
  · simp only [create, initCoords, bind, Except.bind, hv, lift, hsame]
    exact finish_ok rfl hu htri _
  · simp only [NdArr.toFloat, List.forall₂_map_right_iff]
    exact List.forall₂_same.2 fun c _ => floatOf ofInt c
  · intro v h
    simp only [xyz, Dict.get?] at h
    cases h
    exact ⟨rfl, rfl⟩

/-- **C78.** Points over time have the coordinate `time` that was given. -/
theorem C78_times {isLen : U → Bool} (ofInt : ℤ → F) {T : XArr F U A → XArr F U A} (hT : Transposes T) {u : U} (hu : isLen u = true)
    {a : NdArr F} {n k : ℕ} (ha : a.shape = [n, k, 3]) {t : XVar F U A} (hd : t.dims = ["time"]) (hs : t.data.shape = [n])
    {tri : Option (TriIn F)} {tri' : Option (NdArr F)} (htri : initTriangles tri = .ok tri')
    (attributes : Option (List (String × NdArr F))) :
    ∃ s, create isLen ofInt T (.raw a (some u)) tri attributes (some t) = .ok s ∧ s.coordinates.main.dims = ["time", "n", "c"] ∧
      s.coordinates.main.data.shape = [n, k, 3] ∧ List.Forall₂ (FloatOf ofInt) a.cells s.coordinates.main.data.cells ∧
      Dict.get? s.coordinates.coords "time" = some t ∧ s.triangles = tri' ∧ s.attributes = attributes := by
  have hv : vector3d ofInt a (some u) (some t) = .ok ⟨none, ⟨["time", "n", "c"], a.toFloat ofInt, some u, []⟩, [xyz, ("time", t)]⟩ := by
    simp [vector3d, ha, mkArr, checkCoord, NdArr.toFloat, xyz, XVar.sizes, Dict.get?, hd, hs]
  have hsame := transposeNC_ok hT (a := ⟨none, ⟨["time", "n", "c"], a.toFloat ofInt, some u, []⟩, [xyz, ("time", t)]⟩) (pre := ["time"]) rfl
  refine ⟨⟨⟨none, ⟨["time", "n", "c"], a.toFloat ofInt, some u, []⟩, [xyz, ("time", t)]⟩, tri', attributes⟩, ?_, rfl, ha, ?_, ?_, rfl, rfl⟩
  · simp only [create, initCoords, bind, Except.bind, hv, lift, hsame]
    exact finish_ok rfl hu htri _
  · simp only [NdArr.toFloat, List.forall₂_map_right_iff]
    exact List.forall₂_same.2 fun c _ => floatOf ofInt c
  · simp [xyz, Dict.get?]

/-- **C78.** Points with another number of components, or times of another number, are refused with the error of the array. -/
theorem C78_wrong_numbers (isLen : U → Bool) (ofInt : ℤ → F) (T : XArr F U A → XArr F U A) (u : Option U) {a : NdArr F}
    (tri : Option (TriIn F)) (attributes : Option (List (String × NdArr F))) :
    ((∀ k, a.shape ≠ [k, 3]) → create isLen ofInt T (.raw a u) tri attributes none = .error (.array .value)) ∧
    ∀ (n k : ℕ) (t : XVar F U A), a.shape = [n, k, 3] → t.dims = ["time"] → t.data.shape ≠ [n] →
      create isLen ofInt T (.raw a u) tri attributes (some t) = .error (.array .value) := by
  constructor
  · intro h
    have hv : vector3d (A := A) ofInt a u none = .error .value := by
      simp only [vector3d, ite_self, mkArr]
      rw [if_neg]
      intro hc
      rw [Bool.and_eq_true] at hc
      obtain ⟨h1, h2⟩ := hc
      have h1 : a.shape.length = 2 := (of_decide_eq_true h1).symm
      match hsh : a.shape, h1 with
      | [x, y], _ =>
        simp [checkCoord, xyz, XVar.sizes, Dict.get?, NdArr.toFloat, hsh] at h2
        exact h x (by rw [hsh, h2.1])
    simp only [create, initCoords, hv, lift]
    rfl
  · intro n k t ha hd hs
    have hv : vector3d ofInt a u (some t) = .error .value := by
      have h3 : ([n, k, 3] : List ℕ).length ≠ 1 := by simp
      simp only [vector3d, ha, mkArr, h3, if_false]
      rw [if_neg]
      intro hc
      simp only [Bool.and_eq_true, List.all_cons] at hc
      have hc := hc.2.2.1
      simp only [checkCoord, NdArr.toFloat, XVar.sizes, Bool.and_eq_true, ha] at hc
      exact hs (by simpa [Dict.get?] using hc.2)
    simp only [create, initCoords, hv, lift]
    rfl

/-! ## Limits -/

theorem mem_component {K : Type} {xs : List K} {n : ℕ} (hn : xs.length = 3 * n) {i : ℕ} (hi : i < 3) {x : K} :
    x ∈ component xs i ↔ ∃ j < n, xs[3 * j + i]? = some x := by
  unfold component
  have : xs.length / 3 = n := by omega
  simp only [List.mem_filterMap, List.mem_range, this]

/-- **C78.** The limits exist if there are points. They enclose the points in each component and are attained. -/
theorem C78_limits {K : Type} [LinearOrder K] {xs : List K} {n : ℕ} (hn : xs.length = 3 * n) (h0 : 0 < n) :
    ∃ l, limits xs = some l ∧ l.length = 3 ∧ ∀ i < 3, ∃ lo hi, l[i]? = some (lo, hi) ∧
      (∀ j < n, ∀ x, xs[3 * j + i]? = some x → lo ≤ x ∧ x ≤ hi) ∧ (∃ j < n, xs[3 * j + i]? = some lo) ∧
      ∃ j < n, xs[3 * j + i]? = some hi := by
  have hne : ∀ i < 3, component xs i ≠ [] := by
    intro i hi h
    have hlt : 3 * 0 + i < xs.length := by omega
    have := (mem_component hn hi).2 ⟨0, h0, List.getElem?_eq_getElem hlt⟩
    rw [h] at this
    cases this
  have hex : ∀ i < 3, ∃ lo hi, (component xs i).min? = some lo ∧ (component xs i).max? = some hi := by
    intro i hi
    cases hm : (component xs i).min? with
    | none => exact (hne i hi (List.min?_eq_none_iff.1 hm)).elim
    | some lo =>
      cases hM : (component xs i).max? with
      | none => exact (hne i hi (List.max?_eq_none_iff.1 hM)).elim
      | some hi => exact ⟨lo, hi, rfl, rfl⟩
  have spec : ∀ i < 3, ∀ lo hi, (component xs i).min? = some lo → (component xs i).max? = some hi →
      (∀ j < n, ∀ x, xs[3 * j + i]? = some x → lo ≤ x ∧ x ≤ hi) ∧ (∃ j < n, xs[3 * j + i]? = some lo) ∧
      ∃ j < n, xs[3 * j + i]? = some hi := by
    intro i hi lo hi' h1 h2
    rw [List.min?_eq_some_iff] at h1
    rw [List.max?_eq_some_iff] at h2
    refine ⟨?_, (mem_component hn hi).1 h1.1, (mem_component hn hi).1 h2.1⟩
    intro j hj x hx
    have := (mem_component hn hi).2 ⟨j, hj, hx⟩
    exact ⟨h1.2 x this, h2.2 x this⟩
  obtain ⟨a0, b0, p0, q0⟩ := hex 0 (by omega)
  obtain ⟨a1, b1, p1, q1⟩ := hex 1 (by omega)
  obtain ⟨a2, b2, p2, q2⟩ := hex 2 (by omega)
  refine ⟨[(a0, b0), (a1, b1), (a2, b2)], ?_, rfl, ?_⟩
  · simp [limits, p0, q0, p1, q1, p2, q2]
  · intro i hi
    match i, hi with
    | 0, h => exact ⟨a0, b0, rfl, spec 0 h _ _ p0 q0⟩
    | 1, h => exact ⟨a1, b1, rfl, spec 1 h _ _ p1 q1⟩
    | 2, h => exact ⟨a2, b2, rfl, spec 2 h _ _ p2 q2⟩

/-- **C78.** There are no limits without points. -/
theorem C78_limits_empty {K : Type} [LinearOrder K] : limits ([] : List K) = none := by
  simp [limits, component]

/-! ## Mesh files -/

/-- the positions as lengths -/
def positions {K : Type} [Field K] (scale : U → K) (xs : List K) (u : U) : List K := xs.map (· * scale u)

/-- **C78.** Points written to a mesh file and read with the same unit are at the same positions, the triangles are the same. -/
theorem C78_mesh_file {K : Type} [Field K] (scale : U → K) (xs : List K) (u target : U) (h : scale target ≠ 0)
    (triangles : List (List ℕ)) : ∃ ys, fromFile (toFile scale xs u triangles target) target = (ys, target, triangles) ∧
      positions scale ys target = positions scale xs u := by
  refine ⟨_, rfl, ?_⟩
  simp only [positions, toFile, List.map_map]
  refine List.map_congr_left ?_
  intro x _
  simp only [Function.comp_apply]
  field_simp

/-- **C78.** With another unit all positions are scaled by the ratio of the units. -/
theorem C78_mesh_unit {K : Type} [Field K] (scale : U → K) (xs : List K) (u target other : U)
    (triangles : List (List ℕ)) : positions scale (fromFile (toFile scale xs u triangles target) other).1 other =
      (positions scale xs u).map (· * (scale other / scale target)) := by
  simp only [positions, toFile, fromFile, List.map_map]
  refine List.map_congr_left ?_
  intro x _
  simp only [Function.comp_apply]
  ring

namespace Demo

/-- moves the names of the dimensions; the data is unchanged if the dimensions are in order -/
def tp (a : XArr ℤ String String) : XArr ℤ String String := if "n" ∈ a.main.dims ∧ "c" ∈ a.main.dims then
    if ["n", "c"] <:+ a.main.dims then a
    else { a with main := { a.main with dims := a.main.dims.filter (fun d => d ≠ "n" ∧ d ≠ "c") ++ ["n", "c"] } }
  else a

theorem transposes_tp : Transposes tp where
  last := by
    intro a hn hc
    simp only [tp, hn, hc, and_self, if_true]
    split
    · rename_i h
      obtain ⟨pre, h⟩ := h
      exact ⟨pre, h.symm⟩
    · exact ⟨_, rfl⟩
  units := by
    intro a
    unfold tp
    split
    · split <;> rfl
    · rfl
  attrs := by
    intro a
    unfold tp
    split
    · split <;> rfl
    · rfl
  same := by
    intro a pre h
    have hs : ["n", "c"] <:+ a.main.dims := ⟨pre, h.symm⟩
    simp only [tp, hs, if_true]
    split <;> rfl

/-- two points and one triangle, with an attribute of the array -/
def cloud (at' : List (String × String)) (d : DType) : SData ℤ String String :=
  ⟨⟨none, ⟨["n", "c"], ⟨.float 64, [2, 3], [.float 0, .float 1, .float 2, .float 3, .float 4, .float 5]⟩, some "mm", at'⟩, [xyz]⟩,
    some ⟨d, [1, 3], [.int 0, .int 1, .int 0]⟩, none⟩

theorem cloud_ok (at' : List (String × String)) (d : DType) : (cloud at' d).Ok (fun u => u == "mm") where
  array := {
    main := ⟨⟨rfl, by simp [cloud, DType.holds]⟩, rfl⟩
    coords := by
      intro e he
      simp only [cloud, List.mem_singleton] at he
      subst he
      exact ⟨⟨rfl, by simp [xyz, DType.holds]⟩, rfl⟩
    names := by simp [cloud, Dict.keys]
    fits := by
      intro e he
      simp only [cloud, List.mem_singleton] at he
      subst he
      simp [cloud, xyz, XVar.sizes, Dict.get?]
    index := by
      intro e he
      simp only [cloud, List.mem_singleton] at he
      subst he
      simp [cloud, xyz, XVar.sizes, Dict.get?] }
  dims := ⟨[], rfl⟩
  units := ⟨"mm", rfl, rfl⟩
  triangles := by
    intro a ha
    cases ha
    exact ⟨1, rfl⟩

theorem cloud_floats (at' : List (String × String)) (d : DType) : Floats (cloud at' d).coordinates.main.data := by
  simp [Floats, cloud]

/-- C78: unsigned triangles, no attributes: the same object -/
example : ∃ t r, writeSpatial (cloud [] (.uint 32)) = .ok t ∧
    readSpatial (fun u => u == "mm") id tp t = .ok r ∧ r.Same (cloud [] (.uint 32)) := by
  obtain ⟨t, ht⟩ := (C78_write_iff (cloud_ok [] (.uint 32))).2 ⟨rfl, by intro a ha; cases ha; exact .inl rfl, by simp [cloud]⟩
  obtain ⟨r, hr, hs⟩ := C78_same id transposes_tp (cloud_ok _ _) (cloud_floats _ _) ht
  refine ⟨t, r, ht, hr, hs.2 ⟨rfl, fun _ => ⟨rfl, by simp [cloud, Dict.keys, xyz], ?_⟩⟩⟩
  intro v hv
  cases hv
  exact ⟨rfl, rfl, rfl, rfl, rfl⟩

/-- C78: attributes of the array are lost -/
theorem C78_attributes_lost : ∃ t r, writeSpatial (cloud [("sensor", "A")] (.uint 32)) = .ok t ∧
    readSpatial (fun u => u == "mm") id tp t = .ok r ∧ ¬ r.Same (cloud [("sensor", "A")] (.uint 32)) := by
  obtain ⟨t, ht⟩ := (C78_write_iff (cloud_ok [("sensor", "A")] (.uint 32))).2
    ⟨rfl, by intro a ha; cases ha; exact .inl rfl, by simp [cloud]⟩
  obtain ⟨r, hr, hs⟩ := C78_same id transposes_tp (cloud_ok _ _) (cloud_floats _ _) ht
  refine ⟨t, r, ht, hr, fun h => ?_⟩
  have := ((hs.1 h).2 rfl).1
  cases this

/-- C78: signed triangles can be created but not written -/
example : (∃ tri, initTriangles (some (.array ⟨.int 64, [1, 3], [.int 0, .int 1, .int 0]⟩)) = .ok tri ∧ tri = (cloud [] (.int 64)).triangles) ∧
    ∀ t, writeSpatial (cloud [] (.int 64)) ≠ .ok t :=
  ⟨⟨_, rfl, rfl⟩, C78_signed_triangles (cloud_ok _ _) rfl rfl⟩

end Demo

end Weldx.Sto
