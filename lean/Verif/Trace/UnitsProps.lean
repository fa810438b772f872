import Verif.Trace.Units

/-!
# Units of length in traces and geometries (C98)

All functions of a trace give the same results for all descriptions of it. The points of a geometry are right exactly if the
trace segments are described in millimetres (or if the coordinates are zero); this is the case for the two standard segments.
-/

namespace Weldx.Tr
open Matrix
open Weldx.Geo (clip npRound V Seg GErr Qty USeg Contour)

/-! ### scaling -/

theorem norm2_smul' {c : ℝ} (hc : 0 ≤ c) (v : Vec3 ℝ) : norm2 (c • v) = c * norm2 v := by
  unfold norm2
  have : (c • v) 0 ^ 2 + (c • v) 1 ^ 2 + (c • v) 2 ^ 2 = c * c * (v 0 ^ 2 + v 1 ^ 2 + v 2 ^ 2) := by
    simp only [Pi.smul_apply, smul_eq_mul]; ring
  rw [this, Real.sqrt_mul (mul_nonneg hc hc), Real.sqrt_mul_self hc]

theorem normalizeColumns_scale {k : Fin 3 → ℝ} (hk : ∀ j, 0 < k j) (M : Mat3 ℝ) :
    normalizeColumns (Matrix.of fun i j => k j * M i j) = normalizeColumns M := by
  have hn : ∀ j, norm2 (fun i => (Matrix.of fun i j => k j * M i j) i j) = k j * norm2 (fun i => M i j) := fun j =>
    norm2_smul' (hk j).le (fun i => M i j)
  unfold normalizeColumns
  by_cases h : ∀ j, norm2 (fun i => M i j) ≠ 0
  · rw [if_pos h, if_pos fun j => by rw [hn]; exact mul_ne_zero (hk j).ne' (h j)]
    congr 1
    ext i j
    simp only [of_apply]
    have := hn j
    simp only [of_apply] at this
    rw [this, mul_div_mul_left _ _ (hk j).ne']
  · rw [if_neg h, if_neg fun h' => h fun j => ?_]
    have := h' j
    rw [hn] at this
    exact right_ne_zero_of_mul this

/-- the system from scaled coordinates and a scaled tangent -/
theorem lcsFromTangent_smul {u : ℝ} (hu : 0 < u) (limit : Bool) (c x : Vec3 ℝ) :
    lcsFromTangent limit (u • c) (u • x) = (lcsFromTangent limit c x).map fun f => ⟨f.orientation, u • f.coordinates⟩ := by
  have key : ∀ (k : Fin 3 → ℝ) (M N : Mat3 ℝ), (∀ j, 0 < k j) → N = (Matrix.of fun i j => k j * M i j) →
      (construct N (u • c)).mapError TErr.lcs = ((construct M c).mapError TErr.lcs).map fun f => ⟨f.orientation, u • f.coordinates⟩ := by
    intro k M N hk e
    unfold construct checkAndNormalize
    rw [e, normalizeColumns_scale hk]
    cases normalizeColumns M with
    | error e => rfl
    | ok N =>
      simp only [bind, Except.bind]
      by_cases h : N * Nᵀ = 1
      · simp only [h, if_true]; rfl
      · simp only [h, if_false]; rfl
  unfold lcsFromTangent
  cases limit with
  | true =>
    refine key ![u, u, 1] _ _ (fun j => by fin_cases j <;> simp [hu]) ?_
    ext i j
    fin_cases i <;> fin_cases j <;> simp [crossProduct]
  | false =>
    refine key ![u, u, u * u] _ _ (fun j => by fin_cases j <;> simp [hu]) ?_
    ext i j
    fin_cases i <;> fin_cases j <;> simp [crossProduct] <;> ring

theorem interpDisc_smul (u : ℝ) : ∀ (data : Data) (s : ℝ),
    interpDisc (data.map fun p => (p.1, u • p.2)) s = u • interpDisc data s
  | [], _ => by simp [interpDisc]
  | [p], _ => by simp [interpDisc]
  | p :: q :: l, s => by
    have ih := interpDisc_smul u (q :: l) s
    simp only [List.map_cons] at ih
    simp only [List.map_cons, interpDisc]
    by_cases h1 : s ≤ p.1
    · rw [if_pos h1, if_pos h1]
    · rw [if_neg h1, if_neg h1]
      by_cases h2 : s ≤ q.1
      · rw [if_pos h2, if_pos h2, smul_add, ← smul_sub, smul_comm]
      · rw [if_neg h2, if_neg h2, ih]

theorem tangentDisc_smul (u : ℝ) (data : Data) (s : ℝ) :
    tangentDisc (data.map fun p => (p.1, u • p.2)) s = u • tangentDisc data s := by
  have e : (data.map fun p => (p.1, u • p.2)).map Prod.fst = data.map Prod.fst := by simp [Function.comp_def]
  unfold tangentDisc
  rw [e]
  simp only [interpDisc_smul, smul_sub]

theorem dataLength_smul {u : ℝ} (hu : 0 < u) : ∀ data : Data, dataLength (data.map fun p => (p.1, u • p.2)) = u * dataLength data
  | [] => by simp [dataLength]
  | [p] => by simp [dataLength]
  | p :: q :: l => by
    have ih := dataLength_smul hu (q :: l)
    simp only [List.map_cons] at ih
    simp only [List.map_cons, dataLength, ih, ← smul_sub, norm2_smul' hu.le]
    ring

/-! ### trace segments -/

/-- **C98.** The length of a trace segment does not depend on the unit of its points. -/
theorem C98_trace_length {s : UTSeg} (hs : 0 < s.unit) : s.length.mm = s.mm.length := by
  obtain ⟨u, m⟩ := s
  cases m with
  | disc data limit => exact (dataLength_smul hs data).symm
  | expr => rfl

/-- **C98.** The system at a position of a trace segment does not depend on the unit of its points; its coordinates have the
unit of the segment. -/
theorem C98_trace_segment {s : UTSeg} (hs : 0 < s.unit) (x : ℝ) :
    (s.lcs x).map ULcs.mm = s.mm.lcs x ∧ ∀ f, s.lcs x = .ok f → f.unit = s.unit := by
  constructor
  · obtain ⟨u, m⟩ := s
    have hs : 0 < u := hs
    cases m with
    | disc data limit =>
      show ((lcsFromTangent limit (interpDisc data x) (tangentDisc data x)).map _).map ULcs.mm =
        lcsFromTangent limit (interpDisc (data.map fun p => (p.1, u • p.2)) x) (tangentDisc (data.map fun p => (p.1, u • p.2)) x)
      rw [interpDisc_smul, tangentDisc_smul, lcsFromTangent_smul hs]
      cases lcsFromTangent limit (interpDisc data x) (tangentDisc data x) <;> rfl
    | expr curve deriv m l limit =>
      show ((lcsFromTangent limit (curve (x * m)) (deriv (x * m))).map _).map ULcs.mm =
        lcsFromTangent limit (u • curve (x * m)) (u • deriv (x * m))
      rw [lcsFromTangent_smul hs]
      cases lcsFromTangent limit (curve (x * m)) (deriv (x * m)) <;> rfl
  · intro f hf
    unfold UTSeg.lcs at hf
    cases h : s.mag.lcs x with
    | error e => rw [h] at hf; cases hf
    | ok g => rw [h] at hf; cases hf; rfl

/-- **C98.** The sum of two systems with different units is the sum of the systems in millimetres; it has the unit of the left
one. -/
theorem C98_add {f g : ULcs} (hf : 0 < f.unit) : (f.add g).mm = f.mm.add g.mm ∧ (f.add g).unit = f.unit := by
  refine ⟨?_, rfl⟩
  simp only [ULcs.add, ULcs.mm, Lcs.add, smul_add, mulVec_smul, smul_smul]
  rw [mul_div_cancel₀ _ hf.ne']

/-! ### traces -/

theorem map_ok {α β ε : Type} {f : α → β} {x : Except ε α} {b : β} (h : x.map f = .ok b) : ∃ a, x = .ok a ∧ f a = b := by
  cases x with
  | error e => cases h
  | ok a => cases h; exact ⟨a, rfl, rfl⟩

theorem createLookupsU_mm : ∀ (segs : List UTSeg) (_ : ∀ s ∈ segs, 0 < s.unit) (cs : ULcs) (total : ℝ),
    (createLookupsU segs cs total).map (fun r => (r.1.map ULcs.mm, r.2.1, r.2.2.map Qty.mm)) =
      createLookups (segs.map UTSeg.mm) cs.mm total
  | [], _, cs, total => rfl
  | s :: l, h, cs, total => by
    have hs := h s (by simp)
    obtain ⟨h1, h2⟩ := C98_trace_segment hs 1
    simp only [List.map_cons, createLookups, createLookupsU]
    rw [← h1]
    cases hl : s.lcs 1 with
    | error e => rfl
    | ok f =>
      have hf : 0 < f.unit := by rw [h2 f hl]; exact hs
      have ih := createLookupsU_mm l (fun s hs => h s (by simp [hs])) (f.add cs) (total + s.length.unit * s.length.mag)
      have e : s.length.unit * s.length.mag = s.mm.length := C98_trace_length hs
      rw [(C98_add hf).1, e] at ih
      simp only [bind, Except.bind, Except.map, e]
      rw [← ih]
      cases createLookupsU l (f.add cs) (total + s.mm.length) with
      | error e => rfl
      | ok r =>
        simp only [Except.map, List.map_cons]
        rw [← C98_trace_length hs]

/-- **C98.** A trace does not depend on the units of its segments and of its start system: it is created exactly if the trace
in millimetres is, and it has the same tables. -/
theorem C98_trace {segs : List UTSeg} (h : ∀ s ∈ segs, 0 < s.unit) (cs : ULcs) :
    (mkTraceU segs cs).map UTrace.mm = mkTrace (segs.map UTSeg.mm) cs.mm := by
  unfold mkTraceU mkTrace
  rw [← createLookupsU_mm segs h cs 0]
  cases createLookupsU segs cs 0 with
  | error e => rfl
  | ok r =>
    obtain ⟨a, b, c⟩ := r
    simp only [bind, Except.bind, Except.map]
    by_cases hl : b.getLastD 0 ≤ 0
    · rw [if_pos (show UTrace.length ⟨segs, a, b, c⟩ ≤ 0 from hl), if_pos (show Trace.length ⟨_, _, b, _⟩ ≤ 0 from hl)]
    · rw [if_neg (show ¬ UTrace.length ⟨segs, a, b, c⟩ ≤ 0 from hl), if_neg (show ¬ Trace.length ⟨_, _, b, _⟩ ≤ 0 from hl)]
      rfl

/-- what a trace keeps: the segments have positive units -/
def UTrace.Ok (t : UTrace) : Prop := ∀ s ∈ t.segs, 0 < s.unit

theorem mkTraceU_ok {segs : List UTSeg} (h : ∀ s ∈ segs, 0 < s.unit) {cs : ULcs} {t : UTrace} (ht : mkTraceU segs cs = .ok t) :
    t.Ok ∧ t.segs = segs := by
  unfold mkTraceU at ht
  cases hc : createLookupsU segs cs 0 with
  | error e => rw [hc] at ht; cases ht
  | ok r =>
    rw [hc] at ht
    simp only [bind, Except.bind] at ht
    split at ht
    · cases ht
    · cases ht
      exact ⟨h, rfl⟩

theorem segmentCsU_mm {t : UTrace} (h : t.Ok) (idx : ℕ) (x : ℝ) :
    (t.segmentCs idx x).map ULcs.mm = t.mm.segmentCs idx x ∧
    ∀ f, t.segmentCs idx x = .ok f → ∃ s, t.segs[idx]? = some s ∧ f.unit = s.unit := by
  unfold UTrace.segmentCs Trace.segmentCs UTrace.mm
  simp only [List.getElem?_map]
  cases h1 : t.segs[idx]? with
  | none => exact ⟨rfl, by intro f hf; cases hf⟩
  | some s =>
    cases h2 : t.total[idx]? with
    | none => exact ⟨rfl, by intro f hf; cases hf⟩
    | some start =>
      cases h3 : t.segLen[idx]? with
      | none => exact ⟨rfl, by intro f hf; cases hf⟩
      | some len =>
        cases h4 : t.lookup[idx]? with
        | none => exact ⟨rfl, by intro f hf; cases hf⟩
        | some cs =>
          have hs : 0 < s.unit := h s (List.mem_of_getElem? h1)
          have e : (x - start) / len.mag / len.unit = (x - start) / len.mm := by
            rw [div_div, mul_comm]; rfl
          obtain ⟨a, b⟩ := C98_trace_segment hs ((x - start) / len.mm)
          simp only [Option.map_some, bind, Except.bind, e]
          rw [← a]
          cases hl : s.lcs ((x - start) / len.mm) with
          | error e => exact ⟨rfl, by intro f hf; cases hf⟩
          | ok f =>
            refine ⟨?_, ?_⟩
            · simp only [Except.map]
              rw [(C98_add (by rw [b f hl]; exact hs)).1]
            · intro g hg
              cases hg
              exact ⟨s, rfl, b f hl⟩

/-- **C98.** The system at a position of a trace does not depend on the units; its coordinates have the unit of the segment at
this position. -/
theorem C98_trace_position {t : UTrace} (h : t.Ok) (x : ℝ) :
    (t.localCs x).map ULcs.mm = t.mm.localCs x ∧
    ∀ f, t.localCs x = .ok f → ∃ s, t.segs[t.segmentIndex x]? = some s ∧ f.unit = s.unit := by
  obtain ⟨a, b⟩ := segmentCsU_mm h (t.segmentIndex x) x
  have e : t.mm.segmentIndex x = t.segmentIndex x := by
    unfold Trace.segmentIndex UTrace.segmentIndex
    have : t.mm.length = t.length := rfl
    rw [this]
    have : t.mm.segs.length = t.segs.length := by simp [UTrace.mm]
    rw [this]
    rfl
  refine ⟨?_, b⟩
  unfold UTrace.localCs Trace.localCs
  rw [a, e]

theorem rasterLoopU_mm {t : UTrace} (h : t.Ok) (w : ℝ) : ∀ (l : List ℕ) (idx : ℕ),
    t.rasterLoop w l idx = t.mm.rasterLoop w l idx
  | [], _ => rfl
  | i :: l, idx => by
    unfold UTrace.rasterLoop Trace.rasterLoop
    have e : t.mm.total = t.total := rfl
    simp only [e]
    cases firstIdx (i * w) (t.total.drop (idx + 1)) idx with
    | none => rfl
    | some j =>
      obtain ⟨a, -⟩ := segmentCsU_mm h j (i * w)
      simp only []
      rw [← a, ← rasterLoopU_mm h w l j]
      cases t.segmentCs j (i * w) with
      | error e => rfl
      | ok f =>
        cases t.rasterLoop w l j <;> rfl

/-- **C98.** The raster points of a trace do not depend on the units. -/
theorem C98_trace_raster {t : UTrace} (h : t.Ok) (w : ℝ) : t.rasterize w = t.mm.rasterize w := by
  unfold UTrace.rasterize Trace.rasterize
  have e : t.mm.length = t.length := rfl
  rw [e]
  by_cases hw : w > 0
  · rw [if_neg (not_not.2 hw), if_neg (not_not.2 hw)]
    simp only [rasterLoopU_mm h]
    have e2 : t.mm.lookup.getLast? = t.lookup.getLast?.map ULcs.mm := by simp [UTrace.mm, List.getLast?_map]
    rw [e2]
    cases t.lookup.getLast? <;> rfl
  · rw [if_pos hw, if_pos hw]

/-- **C98.** The standard segments do not depend on the unit of their lengths, and are described in millimetres. -/
theorem C98_standard (length radius : Qty ℝ) (angle : ℝ) (clockwise : Bool) :
    (linearU length).map UTSeg.mm = linear length.mm ∧
    (radialU radius angle clockwise).map UTSeg.mm = radial radius.mm angle clockwise ∧
    (∀ s, linearU length = .ok s → s.unit = 1) ∧ (∀ s, radialU radius angle clockwise = .ok s → s.unit = 1) := by
  have one : ∀ s : TSeg, UTSeg.mm ⟨1, s⟩ = s := by
    intro s
    cases s with
    | disc data l =>
      simp only [UTSeg.mm, one_smul]
      congr 1
      exact List.map_id' _
    | expr => simp only [UTSeg.mm, one_smul, one_mul]
  refine ⟨?_, ?_, ?_, ?_⟩
  · unfold linearU
    cases linear length.mm with
    | error e => rfl
    | ok s => exact congrArg Except.ok (one s)
  · unfold radialU
    cases radial radius.mm angle clockwise with
    | error e => rfl
    | ok s => exact congrArg Except.ok (one s)
  · intro s hs
    obtain ⟨a, -, rfl⟩ := map_ok hs
    rfl
  · intro s hs
    obtain ⟨a, -, rfl⟩ := map_ok hs
    rfl

/-! ### geometries -/

theorem map_eq_map_shift {l : List (Vec3 ℝ)} (A : Mat3 ℝ) (c d : Vec3 ℝ) :
    (l.map fun p => A *ᵥ p + c) = (l.map fun p => A *ᵥ p + d) ↔ l = [] ∨ c = d := by
  cases l with
  | nil => simp
  | cons a l =>
    constructor
    · intro h
      simp only [List.map_cons, List.cons.injEq] at h
      exact .inr (add_left_cancel h.1)
    · rintro (h | rfl)
      · cases h
      · rfl

/-- **C98.** A cross section of a geometry: it is right exactly if it is empty, if the trace segment at its position is
described in millimetres, or if the coordinates there are zero. -/
theorem C98_section {t : UTrace} (h : t.Ok) {x : ℝ} {f : ULcs} (hf : t.localCs x = .ok f) (data : List (Vec3 ℝ)) :
    t.mm.localCs x = .ok f.mm ∧ ∃ s, t.segs[t.segmentIndex x]? = some s ∧
      (transformedU t data x = transformed t.mm data x ↔ data = [] ∨ s.unit = 1 ∨ f.mm.coordinates = 0) := by
  obtain ⟨a, b⟩ := C98_trace_position h x
  obtain ⟨s, hs, hu⟩ := b f hf
  have a' : t.mm.localCs x = .ok f.mm := by rw [← a, hf]; rfl
  have hpos : 0 < f.unit := by rw [hu]; exact h s (List.mem_of_getElem? hs)
  refine ⟨a', s, hs, ?_⟩
  unfold transformedU transformed
  rw [hf, a']
  simp only [Except.mapError, bind, Except.bind]
  have inj : ∀ a b : List (Vec3 ℝ), (Except.ok a : Except SErr _) = .ok b ↔ a = b := fun a b =>
    ⟨fun h => by cases h; rfl, fun h => by rw [h]⟩
  rw [inj]
  have hor : f.mm.orientation = f.mag.orientation := rfl
  rw [hor, map_eq_map_shift]
  refine or_congr_right ?_
  have hc : f.mm.coordinates = f.unit • f.mag.coordinates := rfl
  rw [hc, ← hu, smul_eq_zero]
  constructor
  · intro h
    have : (1 - f.unit) • f.mag.coordinates = 0 := by rw [sub_smul, one_smul, ← h, sub_self]
    rcases smul_eq_zero.1 this with h1 | h1
    · exact .inl (by linarith)
    · exact .inr (.inr h1)
  · rintro (h1 | h1 | h1)
    · rw [h1, one_smul]
    · exact absurd h1 hpos.ne'
    · rw [h1, smul_zero]

theorem raster_one (s : USeg) (h : s.unit = 1) (w : ℝ) :
    (s.rasterize ⟨1, w⟩).map Qty.mag = s.mag.rasterize w := by
  obtain ⟨u, m⟩ := s
  have h : u = 1 := h
  subst h
  unfold USeg.rasterize Seg.rasterize
  by_cases hw : w ≤ 0
  · rw [if_pos hw, if_pos hw]; rfl
  · rw [if_neg hw, if_neg hw]
    simp only [Except.map, div_one, one_mul]
    rfl

theorem rasterAll_one (w : ℝ) : ∀ (l : List USeg), (∀ s ∈ l, s.unit = 1) →
    Geo.rasterizeAllU ⟨1, w⟩ l = Geo.rasterizeAll w (l.map USeg.mag)
  | [], _ => rfl
  | s :: l, h => by
    simp only [Geo.rasterizeAllU, Geo.rasterizeAll, List.map_cons]
    rw [← raster_one s (h s (by simp)), rasterAll_one w l fun s hs => h s (by simp [hs])]
    cases s.rasterize ⟨1, w⟩ <;> rfl

theorem shape_one {l : List USeg} (h : ∀ s ∈ l, s.unit = 1) (w : ℝ) :
    (Geo.rasterizeU l ⟨1, w⟩).map Qty.mag = Geo.rasterize (l.map USeg.mag) w := by
  unfold Geo.rasterizeU Geo.rasterize
  cases l with
  | nil => rfl
  | cons s l =>
    have hm : (⟨1, w⟩ : Qty ℝ).mm = w := one_mul w
    obtain ⟨z, hz⟩ : ∃ z, (s :: l).getLast? = some z := ⟨_, List.getLast?_eq_some_getLast (by simp)⟩
    have hz' : ((s :: l).map USeg.mag).getLast? = some z.mag := by rw [List.getLast?_map, hz]; rfl
    have hz1 : z.unit = 1 := h z (List.mem_of_getLast? hz)
    have he : z.pointEnd = z.mag.pointEnd := by
      show z.unit • z.mag.point 1 = z.mag.point 1
      rw [hz1, one_smul]
    have hb : s.pointStart = s.mag.pointStart := by
      show s.unit • s.mag.point 0 = s.mag.point 0
      rw [h s (by simp), one_smul]
    simp only [List.map_cons] at hz' ⊢
    simp only [hz, hz', hm]
    by_cases hw : w > 0
    · rw [if_neg (not_not.2 hw), if_neg (not_not.2 hw), rasterAll_one w (s :: l) h, he, hb]
      simp only [List.map_cons]
      cases Geo.rasterizeAll w (s.mag :: l.map USeg.mag) with
      | error e => rfl
      | ok r =>
        simp only [bind, Except.bind]
        by_cases hc : Geo.columnIsClose z.mag.pointEnd s.mag.pointStart
        · rw [if_pos hc, if_pos hc]; rfl
        · rw [if_neg hc, if_neg hc]; rfl
    · rw [if_pos hw, if_pos hw]; rfl

theorem mapM_congr {α β ε : Type} {f g : α → Except ε β} : ∀ {l : List α}, (∀ x ∈ l, f x = g x) → l.mapM f = l.mapM g
  | [], _ => rfl
  | a :: l, h => by
    rw [List.mapM_cons, List.mapM_cons, h a (by simp), mapM_congr (l := l) fun x hx => h x (by simp [hx])]

theorem mapM_map {α β γ ε : Type} (f : β → Except ε γ) (g : α → β) : ∀ l : List α, (l.map g).mapM f = l.mapM (f ∘ g)
  | [] => rfl
  | a :: l => by
    rw [List.map_cons, List.mapM_cons, List.mapM_cons, mapM_map f g l]; rfl

/-- **C98.** A geometry with all segments of the profile and of the trace described in millimetres, whatever the unit of the
start system and of the raster widths: its points are the ones of the model without units. In particular this is the case for
shapes made by `add_line_segments` and traces of the standard segments. -/
theorem C98_solid {segs : List UTSeg} (h1 : ∀ s ∈ segs, s.unit = 1) {cs : ULcs} {t : UTrace} (ht : mkTraceU segs cs = .ok t)
    {shapes : List (List USeg)} (h2 : ∀ l ∈ shapes, ∀ s ∈ l, s.unit = 1) (pWidth tWidth : Qty ℝ) :
    mkTrace (segs.map UTSeg.mm) cs.mm = .ok t.mm ∧
    solidU t shapes pWidth tWidth = solidStacked t.mm (shapes.map fun l => l.map USeg.mag) pWidth.mm tWidth.mm := by
  have hp : ∀ s ∈ segs, 0 < s.unit := fun s hs => by rw [h1 s hs]; exact one_pos
  obtain ⟨hok, hsegs⟩ := mkTraceU_ok hp ht
  refine ⟨by rw [← C98_trace hp, ht]; rfl, ?_⟩
  unfold solidU solidStacked
  have e1 : t.mm.length = t.length := rfl
  have e2 : profileRasterU shapes pWidth = profileRaster (shapes.map fun l => l.map USeg.mag) pWidth.mm := by
    unfold profileRasterU profileRaster
    rw [mapM_map]
    exact mapM_congr fun l hl => shape_one (h2 l hl) _
  have e3 : ∀ data x, transformedU t data x = transformed t.mm data x := by
    intro data x
    cases hf : t.localCs x with
    | error e =>
      have a := (C98_trace_position hok x).1
      rw [hf] at a
      unfold transformedU transformed
      rw [hf, ← a]; rfl
    | ok f =>
      obtain ⟨-, s, hs, hi⟩ := C98_section hok hf data
      refine hi.2 (.inr (.inl (h1 s ?_)))
      rw [← hsegs]
      exact List.mem_of_getElem? hs
  rw [e1, e2]
  have e4 : ∀ data, transformedU t data = transformed t.mm data := fun data => funext (e3 data)
  simp only [e4]

/-! ### counterexample -/

/-- a straight trace segment of one metre, given by points in metres -/
noncomputable def metre : UTSeg := ⟨1000, .disc [(0, ![0, 0, 0]), (1, ![1, 0, 0])] false⟩

/-- **C98 (counterexample).** A geometry on a straight trace of one metre whose points are given in metres: the cross section in
the middle of the trace is half a millimetre away from the start instead of half a metre. If the same segment is described by
its length or by points in millimetres, it is at the right place. -/
theorem C98_trace_counterexample : ∃ t t', mkTraceU [metre] ⟨1, ⟨1, 0⟩⟩ = .ok t ∧
    (∃ s, linearU ⟨1000, 1⟩ = .ok s ∧ s.mm = metre.mm ∧ mkTraceU [s] ⟨1, ⟨1, 0⟩⟩ = .ok t') ∧ t.mm = t'.mm ∧
    transformedU t [![0, 0, 0]] 500 = .ok [![1 / 2, 0, 0]] ∧ transformedU t' [![0, 0, 0]] 500 = .ok [![500, 0, 0]] := by
  have n3 : ∀ a : ℝ, 0 ≤ a → norm2 ![a, 0, 0] = a := by
    intro a h
    have : ((![a, 0, 0] : Vec3 ℝ) 0 ^ 2 + (![a, 0, 0] : Vec3 ℝ) 1 ^ 2 + (![a, 0, 0] : Vec3 ℝ) 2 ^ 2) = a * a := by
      simp; ring
    rw [norm2, this, Real.sqrt_mul_self h]
  have hcon : ∀ (a : ℝ) (c : Vec3 ℝ), 0 < a → lcsFromTangent false c ![a, 0, 0] = .ok ⟨1, c⟩ := by
    intro a c ha
    have e : (![a, 0, 0] : Vec3 ℝ) = a • ![1, 0, 0] := by funext i; fin_cases i <;> simp
    have e2 : c = a • (a⁻¹ • c) := by rw [smul_smul, mul_inv_cancel₀ ha.ne', one_smul]
    have base : ∀ c, lcsFromTangent false c ![1, 0, 0] = .ok ⟨1, c⟩ := by
      intro c
      have hM : (Matrix.of fun i j => (![![1, 0, 0], crossProduct ![0, 0, 1] ![1, 0, 0],
          crossProduct ![1, 0, 0] (crossProduct ![0, 0, 1] ![1, 0, 0])] : Fin 3 → Vec3 ℝ) j i) = (1 : Mat3 ℝ) := by
        ext i j
        fin_cases i <;> fin_cases j <;> simp [crossProduct]
      unfold lcsFromTangent
      simp only [Bool.false_eq_true, if_false]
      rw [hM]
      have hn : normalizeColumns (1 : Mat3 ℝ) = .ok 1 := by
        have h1 : ∀ j, norm2 (fun i => (1 : Mat3 ℝ) i j) = 1 := by
          intro j
          fin_cases j <;> simp [norm2, Matrix.one_apply]
        unfold normalizeColumns
        rw [if_pos fun j => by rw [h1]; exact one_ne_zero]
        congr 1
        ext i j
        simp only [of_apply, h1, div_one]
      unfold construct checkAndNormalize
      rw [hn]
      simp only [bind, Except.bind, transpose_one, mul_one, if_true]
      rfl
    rw [e, e2, lcsFromTangent_smul ha, base]
    rfl
  -- systems of both segments
  have key : ∀ (u l : ℝ), 0 < u → 0 < l → u * l = 1000 →
      mkTraceU [⟨u, .disc [(0, ![0, 0, 0]), (1, ![l, 0, 0])] false⟩] ⟨1, ⟨1, 0⟩⟩ =
        .ok ⟨[⟨u, .disc [(0, ![0, 0, 0]), (1, ![l, 0, 0])] false⟩], [⟨1, ⟨1, 0⟩⟩, ⟨u, ⟨1, ![l, 0, 0]⟩⟩], [0, 1000], [⟨u, l⟩]⟩ ∧
      transformedU ⟨[⟨u, .disc [(0, ![0, 0, 0]), (1, ![l, 0, 0])] false⟩], [⟨1, ⟨1, 0⟩⟩, ⟨u, ⟨1, ![l, 0, 0]⟩⟩], [0, 1000], [⟨u, l⟩]⟩
        [![0, 0, 0]] 500 = .ok [![l / 2, 0, 0]] := by
    intro u l hu hl hul
    have ht : ∀ x, x = 1 ∨ x = 1 / 2 → tangentDisc [(0, ![0, 0, 0]), (1, ![l, 0, 0])] x = ![l, 0, 0] := by
      rintro x (rfl | rfl)
      · unfold tangentDisc
        norm_num [argmin, interpDisc]
        funext i; fin_cases i <;> rfl
      · unfold tangentDisc
        norm_num [argmin, interpDisc]
        funext i; fin_cases i <;> rfl
    have hlen : dataLength [(0, ![0, 0, 0]), (1, ![l, 0, 0])] = l := by
      have : (![l, 0, 0] - ![0, 0, 0] : Vec3 ℝ) = ![l, 0, 0] := by funext i; fin_cases i <;> simp
      simp only [dataLength, this, n3 l hl.le, add_zero]
    have hi1 : interpDisc [(0, ![0, 0, 0]), (1, ![l, 0, 0])] 1 = ![l, 0, 0] := by
      norm_num [interpDisc]
    have hi2 : interpDisc [(0, ![0, 0, 0]), (1, ![l, 0, 0])] (1 / 2) = ![l / 2, 0, 0] := by
      norm_num [interpDisc]
      ring
    have l1 : UTSeg.lcs ⟨u, .disc [(0, ![0, 0, 0]), (1, ![l, 0, 0])] false⟩ 1 = .ok ⟨u, ⟨1, ![l, 0, 0]⟩⟩ := by
      show ((lcsFromTangent false _ _).map _) = _
      rw [ht 1 (.inl rfl), hi1, hcon l _ hl]; rfl
    have l2 : UTSeg.lcs ⟨u, .disc [(0, ![0, 0, 0]), (1, ![l, 0, 0])] false⟩ (1 / 2) = .ok ⟨u, ⟨1, ![l / 2, 0, 0]⟩⟩ := by
      show ((lcsFromTangent false _ _).map _) = _
      rw [ht (1 / 2) (.inr rfl), hi2, hcon l _ hl]; rfl
    have hlu : UTSeg.length ⟨u, .disc [(0, ![0, 0, 0]), (1, ![l, 0, 0])] false⟩ = ⟨u, l⟩ := by
      show Qty.mk u (dataLength _) = _
      rw [hlen]
    have hadd : ∀ c : Vec3 ℝ, ULcs.add ⟨u, ⟨1, c⟩⟩ ⟨1, ⟨1, 0⟩⟩ = ⟨u, ⟨1, c⟩⟩ := by
      intro c
      simp [ULcs.add]
    constructor
    · unfold mkTraceU
      simp only [createLookupsU, l1, hlu, bind, Except.bind, hadd, hul, zero_add]
      rw [if_neg (by norm_num [UTrace.length])]
    · have hidx : UTrace.segmentIndex ⟨[⟨u, .disc [(0, ![0, 0, 0]), (1, ![l, 0, 0])] false⟩],
          [⟨1, ⟨1, 0⟩⟩, ⟨u, ⟨1, ![l, 0, 0]⟩⟩], [0, 1000], [⟨u, l⟩]⟩ 500 = 0 := by
        simp [UTrace.segmentIndex, firstIdx]
      have hw : (500 - 0) / l / u = 1 / 2 := by
        rw [div_div, mul_comm l u, hul]; norm_num
      unfold transformedU UTrace.localCs
      rw [hidx]
      unfold UTrace.segmentCs
      simp only [List.getElem?_cons_zero, hw, l2, bind, Except.bind, hadd, Except.mapError, List.map_cons, List.map_nil]
      congr 2
      funext i
      fin_cases i <;> simp
  obtain ⟨a1, a2⟩ := key 1000 1 (by norm_num) (by norm_num) (by norm_num)
  obtain ⟨b1, b2⟩ := key 1 1000 (by norm_num) (by norm_num) (by norm_num)
  refine ⟨_, _, a1, ⟨⟨1, .disc [(0, ![0, 0, 0]), (1, ![1000, 0, 0])] false⟩, ?_, ?_, b1⟩, ?_, a2, ?_⟩
  · have hm : (⟨1000, 1⟩ : Qty ℝ).mm = 1000 := by norm_num [Qty.mm]
    unfold linearU linear checkLength
    rw [hm, if_neg (by norm_num)]
    have : TSeg.length (.disc [(0, ![0, 0, 0]), (1, ![1000, 0, 0])] false) = 1000 := by
      show dataLength _ = _
      have : (![1000, 0, 0] - ![0, 0, 0] : Vec3 ℝ) = ![1000, 0, 0] := by funext i; fin_cases i <;> simp
      simp only [dataLength, this, n3 1000 (by norm_num), add_zero]
    rw [this, if_neg (by norm_num)]
    rfl
  · simp [UTSeg.mm, metre]
  · simp [UTrace.mm, UTSeg.mm, ULcs.mm, Qty.mm]
  · rw [b2]; norm_num

/-! ### the hypotheses can be met -/

example : ∃ s t, linearU ⟨1000, 1⟩ = .ok s ∧ mkTraceU [s] ⟨10, ⟨1, 0⟩⟩ = .ok t ∧ t.Ok := by
  obtain ⟨t, t', -, ⟨s, h1, -, h2⟩, -⟩ := C98_trace_counterexample
  have hu : s.unit = 1 := (C98_standard ⟨1000, 1⟩ ⟨1, 1⟩ 1 true).2.2.1 s h1
  have hp : ∀ x ∈ [s], 0 < x.unit := by simp [hu]
  have e : (⟨10, ⟨1, 0⟩⟩ : ULcs).mm = (⟨1, ⟨1, 0⟩⟩ : ULcs).mm := by simp [ULcs.mm]
  have a := C98_trace hp ⟨10, ⟨1, 0⟩⟩
  have b := C98_trace hp ⟨1, ⟨1, 0⟩⟩
  rw [e, ← b, h2] at a
  obtain ⟨q, hq, -⟩ := map_ok a
  exact ⟨s, q, h1, hq, (mkTraceU_ok hp hq).1⟩

end Weldx.Tr
