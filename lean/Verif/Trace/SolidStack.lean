import Verif.Trace.Solid

/-!
# The argument `stack` of a geometry (C61)

Source: `/repo/weldx/geometry.py` 2479-2509 (`Geometry.rasterize`), 2375-2456 (the functions it calls, `Verif/Trace/Solid.lean`).

Simplifications: as in `Verif/Trace/Solid.lean`.
-/

namespace Weldx.Tr

open Weldx.Geo (V Seg GErr)

/-! ### model -/

/-- the result of `Geometry.rasterize` -/
inductive RasterResult where
  /-- an array of points with the unit millimetre, 2408 and 2506-2509 -/
  | quantity (points : List (Vec3 ℝ))
  /-- a list of arrays without unit, 2414-2425 -/
  | arrays (l : List (List (List (Vec3 ℝ))))

/-- `Geometry.rasterize`, `geometry.py` 2479-2509 -/
noncomputable def rasterizeGeometry (t : Trace) (profile : List (List Seg) ⊕ VarProfile (List (List Seg)) GErr) (pWidth tWidth : ℝ)
    (stack : Bool) : Except SErr RasterResult := match profile with
  | .inl shapes =>
    if stack then (solidStacked t shapes pWidth tWidth).map .quantity
    else (solidShapes t shapes pWidth tWidth).map .arrays
  | .inr v => (solidVariable t v pWidth tWidth).map .quantity

/-! ### specification -/

/-- all points of a result -/
def RasterResult.all : RasterResult → List (Vec3 ℝ)
  | .quantity l => l
  | .arrays l => l.flatten.flatten

/-! ### theorems -/

theorem stack_perm {α β γ : Type} (P : List α) (g : α → β → γ) : ∀ D : List (List β),
    ((D.map fun d => P.map fun x => d.map (g x)).flatten.flatten).Perm (P.flatMap fun x => D.flatten.map (g x))
  | [] => by
    simp only [List.map_nil, List.flatten_nil]
    rw [List.flatMap_eq_nil_iff.2 fun _ _ => rfl]
  | d :: D => by
    rw [List.map_cons, List.flatten_cons, List.flatten_append]
    simp only [List.flatten_cons, List.map_append]
    refine List.Perm.trans ?_ (List.flatMap_append_perm P (fun x => d.map (g x)) fun x => D.flatten.map (g x))
    rw [← List.flatMap_def]
    exact (List.Perm.refl _).append (stack_perm P g D)

/-- **C61.** With a constant profile, both values of `stack` give the same points, only their order differs. Without stacking there is one
array for each shape, with one entry for each position. -/
theorem C61_stack {segs : List TSeg} {start : Lcs ℝ} {t : Trace} (ht : mkTrace segs start = .ok t) {shapes : List (List Seg)}
    {pWidth tWidth : ℝ} (hw : 0 < tWidth) {data : List (List V)} (hd : profileRaster shapes pWidth = .ok data) (F : ℝ → Lcs ℝ)
    (hF : ∀ x, 0 ≤ x → x ≤ t.length → t.localCs x = .ok (F x)) : ∃ n l ls, SectionCount t.length tWidth n ∧
      rasterizeGeometry t (.inl shapes) pWidth tWidth true = .ok (.quantity l) ∧
      rasterizeGeometry t (.inl shapes) pWidth tWidth false = .ok (.arrays ls) ∧
      (RasterResult.arrays ls).all.Perm (RasterResult.quantity l).all ∧ ls.length = data.length ∧ (∀ s ∈ ls, s.length = n + 1) ∧
      l.length = (n + 1) * data.flatten.length := by
  obtain ⟨n, hn, h1, h2⟩ := C61_constant ht hw hd F hF
  refine ⟨n, _, _, hn, by simp only [rasterizeGeometry, if_true, h1]; rfl, by
    simp only [rasterizeGeometry, Bool.false_eq_true, if_false, h2]; rfl, stack_perm _ _ _, List.length_map _, ?_, ?_⟩
  · intro s hs
    obtain ⟨d, _, rfl⟩ := List.mem_map.1 hs
    simp [positions]
  · rw [← List.flatMap_def, List.length_flatMap]
    simp only [List.length_map, List.map_const', List.sum_replicate, smul_eq_mul, positions, List.length_range]

/-- **C61.** With a variable profile `stack` has no effect: the result is always a single array with a unit, the one of `C61_variable`. -/
theorem C61_stack_ignored (t : Trace) (v : VarProfile (List (List Seg)) GErr) (pWidth tWidth : ℝ) (stack : Bool) :
    rasterizeGeometry t (.inr v) pWidth tWidth stack = (solidVariable t v pWidth tWidth).map .quantity ∧
      ∀ l, rasterizeGeometry t (.inr v) pWidth tWidth stack ≠ .ok (.arrays l) := by
  refine ⟨rfl, fun l h => ?_⟩
  simp only [rasterizeGeometry] at h
  cases hs : solidVariable t v pWidth tWidth <;> rw [hs] at h <;> cases h

/-- **C61.** Both values of `stack` raise the same exception if the raster width of the trace or the profile is refused. -/
theorem C61_stack_refused (t : Trace) (shapes : List (List Seg)) (pWidth tWidth : ℝ) :
    (∀ e, geometryLocations t.length tWidth = .error e → ∀ stack,
      rasterizeGeometry t (.inl shapes) pWidth tWidth stack = .error (.trace e)) ∧
    ∀ l e, geometryLocations t.length tWidth = .ok l → profileRaster shapes pWidth = .error e → ∀ stack,
      rasterizeGeometry t (.inl shapes) pWidth tWidth stack = .error (.profile e) := by
  constructor
  · intro e h stack
    cases stack <;> simp only [rasterizeGeometry, solidStacked, solidShapes, h] <;> rfl
  · intro l e h1 h2 stack
    cases stack <;> simp only [rasterizeGeometry, solidStacked, solidShapes, h1, h2] <;> rfl

/-- a profile with one line on a straight trace of length 2: both ways give the points of two sections -/
example : ∃ t, mkTrace [lin 2] Lcs.default = .ok t ∧ ∀ data, profileRaster [[Seg.line ![0, 0] ![3, 4] 5]] 1 = .ok data →
    ∃ l ls, rasterizeGeometry t (.inl [[Seg.line ![0, 0] ![3, 4] 5]]) 1 9 true = .ok (.quantity l) ∧
      rasterizeGeometry t (.inl [[Seg.line ![0, 0] ![3, 4] 5]]) 1 9 false = .ok (.arrays ls) ∧ l.length = 2 * data.flatten.length := by
  obtain ⟨t, ht, hl, -⟩ := C61_straight (L := 2) two_pos
  refine ⟨t, ht, fun data hd => ?_⟩
  obtain ⟨F, hF⟩ := C61_systems ht (by simp; exact .line two_pos) (by rw [Lcs.orthonormal_iff']; simp [Lcs.default])
  obtain ⟨n, l, ls, hn, h1, h2, -, -, -, h3⟩ := C61_stack ht (tWidth := 9) (by norm_num) hd F fun x h0 h1 => (hF x h0 h1).1
  have : n = 1 := hn.2.1 (by rw [hl]; norm_num)
  subst this
  exact ⟨l, ls, h1, h2, h3⟩

end Weldx.Tr
