import Verif.Trace.Raster
import Verif.Trace.Variable
import Verif.Geometry.Raster

/-!
# Rasterisation of a geometry (C61)

Source: `/repo/weldx/geometry.py` 1374-1397 (`Profile.rasterize`), 2280-2296 (`_get_local_profile_data`), 2326-2373
(`_get_transformed_profile_data`, `_profile_raster_data_3d`), 2375-2456 (`_rasterize_constant_profile`,
`_rasterize_variable_profile`).

Simplifications: an array of points is the list of its columns, `hstack` is concatenation, `stack` makes a list of arrays.
`np.hstack` of an empty list (a profile without shapes) is an empty list instead of a `ValueError`.
-/

namespace Weldx.Tr

open Matrix
open Weldx.Geo (clip npRound V Seg GErr)

/-- exceptions while a geometry is rasterised -/
inductive SErr where
  | trace (e : TErr)
  | profile (e : GErr)
  | variable (e : VErr GErr)

/-- `Profile.rasterize` with `stack=False`, `geometry.py` 1374-1397 -/
noncomputable def profileRaster (shapes : List (List Seg)) (width : ℝ) : Except GErr (List (List V)) :=
  shapes.mapM fun s => Geo.rasterize s width

/-- `np.insert(p, 0, 0, axis=0)` for a point, `geometry.py` 2371-2373 -/
def insert0 (p : V) : Vec3 ℝ := ![0, p 0, p 1]

/-- `_get_transformed_profile_data`, `geometry.py` 2326-2346 -/
noncomputable def transformed (t : Trace) (data : List (Vec3 ℝ)) (location : ℝ) : Except SErr (List (Vec3 ℝ)) := do
  let localCs ← (t.localCs location).mapError .trace
  .ok (data.map fun p => localCs.orientation *ᵥ p + localCs.coordinates)

/-- `_rasterize_constant_profile` with `stack=True`, `geometry.py` 2395-2408 -/
noncomputable def solidStacked (t : Trace) (shapes : List (List Seg)) (pWidth tWidth : ℝ) : Except SErr (List (Vec3 ℝ)) := do
  let locations ← (geometryLocations t.length tWidth).mapError .trace
  let data ← (profileRaster shapes pWidth).mapError .profile
  let sections ← locations.mapM (transformed t (data.flatten.map insert0))
  .ok sections.flatten

/-- `_rasterize_constant_profile` with `stack=False`, `geometry.py` 2395 and 2409-2425: for each shape one list per location -/
noncomputable def solidShapes (t : Trace) (shapes : List (List Seg)) (pWidth tWidth : ℝ) :
    Except SErr (List (List (List (Vec3 ℝ)))) := do
  let locations ← (geometryLocations t.length tWidth).mapError .trace
  let data ← (profileRaster shapes pWidth).mapError .profile
  data.mapM fun d => locations.mapM (transformed t (d.map insert0))

/-- the body of the loop in `_rasterize_variable_profile` with `_get_local_profile_data`, `geometry.py` 2291-2296 and
2448-2451 -/
noncomputable def variableSection (t : Trace) (v : VarProfile (List (List Seg)) GErr) (pWidth location : ℝ) :
    Except SErr (List (Vec3 ℝ)) := do
  let relativeLocation := location / t.length
  let profileLocation := relativeLocation * v.maxLocation
  let shapes ← (v.localProfile profileLocation).mapError .variable
  let data ← (profileRaster shapes pWidth).mapError .profile
  transformed t (data.flatten.map insert0) location

/-- `_rasterize_variable_profile`, `geometry.py` 2428-2456 -/
noncomputable def solidVariable (t : Trace) (v : VarProfile (List (List Seg)) GErr) (pWidth tWidth : ℝ) :
    Except SErr (List (Vec3 ℝ)) := do
  let locations ← (geometryLocations t.length tWidth).mapError .trace
  let sections ← locations.mapM (variableSection t v pWidth)
  .ok sections.flatten

/-! ### properties -/

theorem mapM_ok {α β ε : Type} {f : α → Except ε β} {g : α → β} : ∀ {l : List α}, (∀ x ∈ l, f x = .ok (g x)) →
    l.mapM f = .ok (l.map g)
  | [], _ => rfl
  | a :: l, h => by
    rw [List.mapM_cons, h a (by simp), mapM_ok (l := l) (g := g) fun x hx => h x (by simp [hx])]
    rfl

/-- the point of the cross section at a system of the trace: `y` and `z` are the coordinates in the profile -/
def place (f : Lcs ℝ) (p : V) : Vec3 ℝ := f.toParent ![0, p 0, p 1]

theorem transformed_eq {t : Trace} {x : ℝ} {f : Lcs ℝ} (h : t.localCs x = .ok f) (d : List V) :
    transformed t (d.map insert0) x = .ok (d.map (place f)) := by
  unfold transformed
  simp only [h, Except.mapError, bind, Except.bind, List.map_map]
  congr 1
  apply List.map_congr_left
  intro p _
  simp only [Function.comp, place, Lcs.toParent_eq, insert0]

/-- the positions of the cross sections: `n + 1` positions with equal distances from the start to the end of the trace -/
noncomputable def positions (L : ℝ) (n : ℕ) : List ℝ := (List.range (n + 1)).map fun i : ℕ => (i : ℝ) * L / n

theorem positions_mem {L : ℝ} {n : ℕ} (hL : 0 < L) (hn : 0 < n) {x : ℝ} (h : x ∈ positions L n) : 0 ≤ x ∧ x ≤ L := by
  have hn' : (0 : ℝ) < n := by exact_mod_cast hn
  simp only [positions, List.mem_map, List.mem_range] at h
  obtain ⟨i, hi, rfl⟩ := h
  have hi' : (i : ℝ) ≤ n := by exact_mod_cast (by omega : i ≤ n)
  refine ⟨by positivity, ?_⟩
  rw [div_le_iff₀ hn']; nlinarith

/-- the number of cross sections minus one: the nearest number to length through width, at least one -/
def SectionCount (L width : ℝ) (n : ℕ) : Prop := 0 < n ∧ (L ≤ width → n = 1) ∧ (width ≤ L → |(n : ℝ) - L / width| ≤ 1 / 2)

/-- **C61.** A geometry with a constant profile: the raster consists of one copy of the rasterised profile for each of the
positions on the trace, placed in the `y`-`z`-plane of the local system there. Stacked: one cross section after the other.
Not stacked: for each shape the list of its cross sections. -/
theorem C61_constant {segs : List TSeg} {start : Lcs ℝ} {t : Trace} (ht : mkTrace segs start = .ok t)
    {shapes : List (List Seg)} {pWidth tWidth : ℝ} (hw : 0 < tWidth) {data : List (List V)}
    (hd : profileRaster shapes pWidth = .ok data) (F : ℝ → Lcs ℝ)
    (hF : ∀ x, 0 ≤ x → x ≤ t.length → t.localCs x = .ok (F x)) :
    ∃ n, SectionCount t.length tWidth n ∧
      solidStacked t shapes pWidth tWidth = .ok ((positions t.length n).flatMap fun x => data.flatten.map (place (F x))) ∧
      solidShapes t shapes pWidth tWidth = .ok (data.map fun d => (positions t.length n).map fun x => d.map (place (F x))) := by
  have hL := (mkTrace_spec ht).length_pos
  obtain ⟨n, hn, h1, h2, hl⟩ := C45_geometry hL hw
  have hsec : ∀ d : List V, (positions t.length n).mapM (transformed t (d.map insert0)) =
      .ok ((positions t.length n).map fun x => d.map (place (F x))) := by
    intro d
    apply mapM_ok
    intro x hx
    obtain ⟨h0, h1⟩ := positions_mem hL hn hx
    exact transformed_eq (hF x h0 h1) d
  refine ⟨n, ⟨hn, h1, h2⟩, ?_, ?_⟩
  · unfold solidStacked
    rw [hl, hd]
    have := hsec data.flatten
    simp only [positions] at this
    simp only [Except.mapError, bind, Except.bind, this, List.flatMap_def, positions]
  · unfold solidShapes
    rw [hl, hd]
    simp only [Except.mapError, bind, Except.bind]
    exact mapM_ok fun d _ => hsec d

/-- **C61.** The systems exist: on a trace of horizontal segments with an orthonormal start each position has an orthonormal
system. -/
theorem C61_systems {segs : List TSeg} {start : Lcs ℝ} {t : Trace} (ht : mkTrace segs start = .ok t)
    (hs : ∀ s ∈ segs, IsHorizontal s) (ho : start.Orthonormal) :
    ∃ F : ℝ → Lcs ℝ, ∀ x, 0 ≤ x → x ≤ t.length → t.localCs x = .ok (F x) ∧ (F x).Orthonormal := by
  have : ∀ x, ∃ f : Lcs ℝ, 0 ≤ x → x ≤ t.length → t.localCs x = .ok f ∧ f.Orthonormal := by
    intro x
    by_cases h0 : 0 ≤ x
    · by_cases h1 : x ≤ t.length
      · obtain ⟨g, ⟨⟨c, s, hc, hg⟩, -⟩, h⟩ := C44_plane ht hs h0 h1
        have hgo : g.Orthonormal := by
          rw [Lcs.orthonormal_iff', hg]
          exact rotZ_orth hc
        exact ⟨_, fun _ _ => ⟨h, (C03_orthonormal_closed _ _ hgo ho).1⟩⟩
      · exact ⟨start, fun _ h => absurd h h1⟩
    · exact ⟨start, fun h => absurd h h0⟩
  choose F hF using this
  exact ⟨F, hF⟩

/-- **C61.** Each cross section is congruent to the profile: distances are kept. -/
theorem C61_congruent {f : Lcs ℝ} (ho : f.Orthonormal) (p q : V) : dist3 (place f p) (place f q) = Geo.len (q - p) := by
  rw [dist3_eq, place, place, (C03_isometry f ho _ _ 0).2]
  unfold Geo.len Geo.dot distSq
  congr 1
  simp
  ring

/-- **C61.** Each cross section lies in the plane through the position on the trace that is perpendicular to the first axis,
which is the direction of the trace there (`C44_direction`). -/
theorem C61_perpendicular {f : Lcs ℝ} (ho : f.Orthonormal) (p : V) :
    dot3 (f.axis 0) (place f p - f.coordinates) = 0 := by
  have h1 := ho 0 1
  have h2 := ho 0 2
  simp only [dot3, Lcs.axis, Fin.isValue, Fin.reduceEq, if_false] at h1 h2
  simp only [place, Lcs.toParent, dot3, Lcs.axis, Pi.sub_apply]
  simp
  linear_combination (p 0) * h1 + (p 1) * h2

/-- **C61.** A geometry with a variable profile: the cross section at the fraction `i / n` of the trace is the raster of the
local profile at the same fraction of the profile's range. -/
theorem C61_variable {segs : List TSeg} {start : Lcs ℝ} {t : Trace} (ht : mkTrace segs start = .ok t)
    {v : VarProfile (List (List Seg)) GErr} {pWidth tWidth : ℝ} (hw : 0 < tWidth) (F : ℝ → Lcs ℝ)
    (hF : ∀ x, 0 ≤ x → x ≤ t.length → t.localCs x = .ok (F x)) (P : ℝ → List (List Seg)) (D : ℝ → List (List V))
    (hP : ∀ w, 0 ≤ w → w ≤ 1 → v.localProfile (w * v.maxLocation) = .ok (P w))
    (hD : ∀ w, 0 ≤ w → w ≤ 1 → profileRaster (P w) pWidth = .ok (D w)) :
    ∃ n, SectionCount t.length tWidth n ∧
      solidVariable t v pWidth tWidth = .ok ((List.range (n + 1)).flatMap fun i : ℕ =>
        (D ((i : ℝ) / n)).flatten.map (place (F ((i : ℝ) * t.length / n)))) := by
  have hL := (mkTrace_spec ht).length_pos
  obtain ⟨n, hn, h1, h2, hl⟩ := C45_geometry hL hw
  have hn' : (0 : ℝ) < n := by exact_mod_cast hn
  refine ⟨n, ⟨hn, h1, h2⟩, ?_⟩
  unfold solidVariable
  rw [hl]
  have key : (positions t.length n).mapM (variableSection t v pWidth) =
      .ok ((positions t.length n).map fun x => (D (x / t.length)).flatten.map (place (F x))) := by
    apply mapM_ok
    intro x hx
    obtain ⟨h0, h1⟩ := positions_mem hL hn hx
    have w0 : 0 ≤ x / t.length := div_nonneg h0 hL.le
    have w1 : x / t.length ≤ 1 := (div_le_one hL).2 h1
    unfold variableSection
    simp only [hP _ w0 w1, hD _ w0 w1, Except.mapError, bind, Except.bind]
    exact transformed_eq (hF x h0 h1) _
  simp only [positions, List.map_map] at key
  simp only [Except.mapError, bind, Except.bind, key, List.flatMap_def]
  congr 2
  apply List.map_congr_left
  intro i _
  simp only [Function.comp]
  congr 3
  field_simp

/-- **C61.** The first and the last cross section belong to the first and the last profile. -/
theorem C61_variable_ends {v : VarProfile (List (List Seg)) GErr} (h : v.Good) (h2 : 2 ≤ v.profiles.length)
    (hi : ∀ k f p q, v.schemes[k]? = some f → v.profiles[k]? = some p → v.profiles[k + 1]? = some q → Interpolating f p q)
    {first last : List (List Seg)} (hf : v.profiles[0]? = some first) (hl : v.profiles[v.profiles.length - 1]? = some last) :
    v.localProfile (0 * v.maxLocation) = .ok first ∧ v.localProfile (1 * v.maxLocation) = .ok last := by
  rw [zero_mul, one_mul]
  refine ⟨C46_given h h2 hi h.first hf, C46_given h h2 hi (k := v.profiles.length - 1) ?_ hl⟩
  rw [h.lenP]
  exact max_eq h

/-- **C61.** The raster of a profile has the raster of each shape, in their order. -/
theorem C61_profile {shapes : List (List Seg)} {width : ℝ} {data : List (List V)} (h : profileRaster shapes width = .ok data) :
    List.Forall₂ (fun s d => Geo.rasterize s width = .ok d) shapes data := by
  unfold profileRaster at h
  induction shapes generalizing data with
  | nil =>
    cases h
    exact .nil
  | cons s l ih =>
    rw [List.mapM_cons] at h
    simp only [bind, Except.bind] at h
    cases hs : Geo.rasterize s width with
    | error e => rw [hs] at h; cases h
    | ok d =>
      rw [hs] at h
      simp only at h
      cases hl : l.mapM (fun s => Geo.rasterize s width) with
      | error e => rw [hl] at h; cases h
      | ok ds =>
        rw [hl] at h
        cases h
        exact .cons hs (ih hl)

/-- **C61.** On a straight trace that starts with the default system, the point of the cross section at `x` has the
coordinates `x`, `y`, `z`: the raster is the one whose triangulation is `C59_volume`. -/
theorem C61_straight {L : ℝ} (hL : 0 < L) : ∃ t, mkTrace [lin L] Lcs.default = .ok t ∧ t.length = L ∧
    ∀ x, 0 ≤ x → x ≤ L → ∃ f, t.localCs x = .ok f ∧ ∀ p, place f p = ![x, p 0, p 1] := by
  have hs : ∀ s ∈ [lin L], IsHorizontal s := by
    intro s h
    rw [List.mem_singleton] at h
    subst h
    exact .line hL
  obtain ⟨t, ht⟩ := (C44_accepted [lin L] Lcs.default hs).2 (by simp)
  have hlen : t.length = L := by
    rw [C44_length ht]
    simp [lin_length hL]
  refine ⟨t, ht, hlen, ?_⟩
  intro x h0 h1
  have hsl : (lin L).length = L := by simp [lin_length hL]
  have hb : before [lin L] 1 = L := by simp [before, hsl]
  have hw0 : 0 ≤ x / L := div_nonneg h0 hL.le
  have hw1 : x / L ≤ 1 := (div_le_one hL).2 h1
  have hlc := lin_lcs hL hw0
  rw [Geo.clip_of_mem hw0 hw1, div_mul_cancel₀ _ hL.ne'] at hlc
  have := C44_position ht hs (k := 0) (s := lin L) rfl (p := x) (by rw [before_zero]; exact h0) (by rw [hb]; exact h1)
    .zero (by rw [before_zero, sub_zero, hsl]; exact hlc)
  refine ⟨_, this, ?_⟩
  intro p
  rw [place, C01_add_composes, (C01_default_neutral Lcs.default _).1]
  rw [Lcs.toParent_eq, Matrix.one_mulVec]
  ext i
  fin_cases i <;> simp

/-- non-trivial example: a line segment as profile on a straight trace of length 2, one section at each end -/
example : ∃ t, mkTrace [lin 2] Lcs.default = .ok t ∧ ∀ data, profileRaster [[Seg.line ![0, 0] ![3, 4] 5]] 1 = .ok data →
    ∃ F : ℝ → Lcs ℝ, solidStacked t [[Seg.line ![0, 0] ![3, 4] 5]] 1 9 = .ok (data.flatten.map (place (F 0)) ++ data.flatten.map (place (F 2))) := by
  obtain ⟨t, ht, hl, -⟩ := C61_straight (L := 2) two_pos
  refine ⟨t, ht, ?_⟩
  intro data hd
  obtain ⟨F, hF⟩ := C61_systems ht (by simp; exact .line two_pos) (by rw [Lcs.orthonormal_iff']; simp [Lcs.default])
  obtain ⟨n, hn, h, -⟩ := C61_constant ht (tWidth := 9) (by norm_num) hd F fun x h0 h1 => (hF x h0 h1).1
  have : n = 1 := hn.2.1 (by rw [hl]; norm_num)
  subst this
  refine ⟨F, ?_⟩
  rw [h, hl]
  simp [positions, List.range_succ]

end Weldx.Tr
