import Verif.TimeLcs.Units

/-!
# Coordinate systems do not depend on the unit of length (C99)
-/

namespace Weldx

open Ip Matrix

/-! ### interpolation is homogeneous -/

namespace Ip

theorem bfill_map {V W : Type} (f : V → W) : ∀ l : List (Option V), bfill (l.map (Option.map f)) = (bfill l).map (Option.map f)
  | [] => rfl
  | some v :: l => by simp [bfill, bfill_map f l]
  | none :: l => by
    simp only [List.map_cons, Option.map_none, bfill, bfill_map f l]
    congr 1
    cases bfill l with
    | nil => rfl
    | cons a _ => cases a <;> rfl

theorem ffill_map {V W : Type} (f : V → W) : ∀ (l : List (Option V)) (a : Option V),
    ffill (l.map (Option.map f)) (a.map f) = (ffill l a).map (Option.map f)
  | [], _ => rfl
  | some v :: l, _ => by
    have := ffill_map f l (some v)
    simp only [Option.map_some] at this
    simp [ffill, this]
  | none :: l, a => by simp [ffill, ffill_map f l a]

theorem fillAll_map {V W : Type} (f : V → W) (l : List (Option V)) :
    fillAll (l.map (Option.map f)) = (fillAll l).map (Option.map f) := by
  have := ffill_map f (bfill l) none
  simp only [Option.map_none] at this
  rw [fillAll, fillAll, bfill_map, this]

variable {V : Type} [AddCommGroup V] [Module ℝ V]

theorem lin_smul (k : ℝ) : ∀ (s : Series V) (t : Int), lin (s.map fun p => (p.1, k • p.2)) t = (lin s t).map (k • ·)
  | [], _ => rfl
  | [p], t => by by_cases h : t = p.1 <;> simp [lin, h]
  | p :: q :: l, t => by
    have ih := lin_smul k (q :: l) t
    simp only [List.map_cons] at ih
    simp only [List.map_cons, lin]
    split
    · rfl
    · split
      · simp only [Option.map_some, smul_add, ← smul_sub]
        rw [smul_comm]
      · exact ih

theorem stepFill_smul (k : ℝ) : ∀ (s : Series V) (t : Int),
    stepFill (s.map fun p => (p.1, k • p.2)) t = (stepFill s t).map (k • ·)
  | [], _ => rfl
  | p :: l, t => by
    simp only [List.map_cons, stepFill, stepFill_smul k l t]
    split
    · rfl
    · cases stepFill l t <;> rfl

theorem raw_smul (k : ℝ) (m : Method) (s : Series V) (t : Int) :
    raw m (s.map fun p => (p.1, k • p.2)) t = (raw m s t).map (k • ·) := by
  match s, m with
  | [], .linear => rfl
  | [], .step => rfl
  | [p], .linear => by_cases h : t = p.1 <;> simp [raw, h]
  | [p], .step => by_cases h : t = p.1 <;> simp [raw, h]
  | p :: q :: l, .linear => exact lin_smul k (p :: q :: l) t
  | p :: q :: l, .step => exact stepFill_smul k (p :: q :: l) t

theorem addEdges_smul (k : ℝ) (s : Series V) (ts : List Int) : addEdges (s.map fun p => (p.1, k • p.2)) ts = addEdges s ts := by
  match s with
  | [] => rfl
  | [p] => rfl
  | p :: q :: l =>
    have : ((p :: q :: l).map fun p => (p.1, k • p.2)).getLast? = ((p :: q :: l).getLast?).map fun p => (p.1, k • p.2) := by
      rw [List.getLast?_map]
    simp only [addEdges, this]
    simp only [List.map_cons]
    cases (p :: q :: l).getLast? <;> rfl

theorem mapM_option_map {α β γ : Type} (f : α → Option β) (g : β → γ) : ∀ l : List α,
    (l.mapM fun a => (f a).map g) = (l.mapM f).map (List.map g)
  | [] => rfl
  | a :: l => by
    rw [List.mapM_cons, List.mapM_cons, mapM_option_map f g l]
    cases f a with
    | none => rfl
    | some b => cases l.mapM f <;> rfl

/-- interpolation of multiples -/
theorem interpLike_smul (k : ℝ) (m : Method) (s : Series V) (ts : List Int) :
    interpLike m (s.map fun p => (p.1, k • p.2)) ts = (interpLike m s ts).map (List.map (k • ·)) := by
  simp only [interpLike, addEdges_smul]
  have h : (addEdges s ts).map (raw m (s.map fun p => (p.1, k • p.2))) =
      ((addEdges s ts).map (raw m s)).map (Option.map (k • ·)) := by
    rw [List.map_map]
    exact List.map_congr_left fun t _ => raw_smul k m s t
  rw [h, fillAll_map, ← mapM_option_map]
  congr 1
  funext t
  rw [List.getElem?_map]
  cases (fillAll ((addEdges s ts).map (raw m s)))[(addEdges s ts).idxOf t]? with
  | none => rfl
  | some v => cases v <;> rfl

end Ip

namespace TLcs

theorem scale_dependent (k : ℝ) (c : TLcs) : (c.scale k).dependent = c.dependent := by
  unfold dependent scale
  cases c.coord <;> rfl

theorem scale_time (k : ℝ) (c : TLcs) : (c.scale k).time = c.time := rfl

theorem scale_reset (k : ℝ) (c : TLcs) (r : Int) : (c.scale k).reset r = (c.reset r).scale k := by
  obtain ⟨times, ref, o, x⟩ := c
  cases times with
  | none => rfl
  | some l => cases ref with
    | none => rfl
    | some old => by_cases h : r = old <;> simp [h, reset, scale]

theorem scale_unifyRefs (j k : ℝ) (a b : TLcs) : unifyRefs (a.scale j) (b.scale k) =
    ((unifyRefs a b).1.scale j, (unifyRefs a b).2.1.scale k, (unifyRefs a b).2.2) := by
  unfold unifyRefs
  rw [show (a.scale j).ref = a.ref from rfl, show (b.scale k).ref = b.ref from rfl]
  cases a.ref with
  | none => rfl
  | some x => cases b.ref with
    | none => rfl
    | some y =>
      by_cases h : x ≠ y
      · by_cases h' : x < y
        · simp [h, h', scale_reset]
        · simp [h, h', scale_reset]
      · simp [h]

theorem interpComp_scale (k : ℝ) (own ts : List Int) (c : Comp (Vec3 ℝ)) :
    interpComp interpCoordinates own ts (c.map (k • ·)) = (interpComp interpCoordinates own ts c).map (Comp.map (k • ·)) := by
  cases c with
  | static v => rfl
  | series l =>
    simp only [Comp.map, interpComp]
    have hz : own.zip (l.map (k • ·)) = (own.zip l).map fun p => (p.1, k • p.2) := by
      rw [List.zip_map_right]; rfl
    cases ts.max? with
    | none => rfl
    | some a => cases ts.min? with
      | none => rfl
      | some b => cases own.min? with
        | none => rfl
        | some c => cases own.max? with
          | none => rfl
          | some d =>
            simp only
            split
            · rw [List.head?_map]; cases l.head? <;> rfl
            · split
              · rw [List.getLast?_map]; cases l.getLast? <;> rfl
              · rw [hz, interpCoordinates, interpLike_smul, interpCoordinates]
                cases interpLike .linear (own.zip l) ts with
                | none => rfl
                | some r => match r with
                  | [] => rfl
                  | [v] => rfl
                  | v :: w :: r => rfl

theorem interpTime_scale (S : Slerp) (k : ℝ) (c : TLcs) (time : Option Time) (timeRef : Option Int) :
    (c.scale k).interpTime S time timeRef = (c.interpTime S time timeRef).map (scale k) := by
  unfold interpTime
  cases time with
  | none => rfl
  | some t =>
    simp only [scale_dependent, scale_time]
    cases c.dependent with
    | false => rfl
    | true =>
      simp only [if_true]
      cases t.ofTime timeRef with
      | error e => rfl
      | ok t =>
        simp only [bind, Except.bind]
        rw [show (c.scale k).ref = c.ref from rfl, show (c.scale k).orient = c.orient from rfl,
          show (c.scale k).coord = c.coord.map (k • ·) from rfl]
        split
        · rfl
        · cases c.time with
          | error e => rfl
          | ok own => cases own with
            | none => rfl
            | some own =>
              simp only
              cases interpComp (interpOrientation S) own.vals t.vals c.orient with
              | error e => rfl
              | ok o =>
                simp only [interpComp_scale]
                cases interpComp interpCoordinates own.vals t.vals c.coord with
                | error e => rfl
                | ok x =>
                  have hx : (x.map (k • · : Vec3 ℝ → Vec3 ℝ)).isSeries = x.isSeries := by cases x <;> rfl
                  simp only [Except.map, hx]
                  split
                  · cases t.asTimedelta with
                    | error e => rfl
                    | ok _ => cases t.referenceTime <;> rfl
                  · split <;> rfl

theorem mergeTimes_scale (j k : ℝ) (a b : TLcs) : mergeTimes (a.scale j) (b.scale k) = mergeTimes a b := by
  unfold mergeTimes
  rw [scale_dependent, scale_dependent]
  rfl

theorem invert_scale (k : ℝ) (c : TLcs) : (c.scale k).invert = c.invert.scale k := by
  unfold invert scale
  simp only [TLcs.mk.injEq, true_and]
  cases c.orient <;> cases c.coord <;>
    simp [Comp.map₂, Comp.map, mulVec_neg, mulVec_smul, List.map_map, Function.comp_def, List.zipWith_map_right, List.map_zipWith]

end TLcs

namespace ELcs

theorem interpTime_scale (S : Slerp) (k : ℝ) (e : ELcs) (t : Time) (timeRef : Option Int) :
    (e.scale k).interpTime S t timeRef = (e.interpTime S t timeRef).map (TLcs.scale k) := by
  unfold interpTime
  cases t.ofTime timeRef with
  | error e => rfl
  | ok t =>
    simp only [bind, Except.bind]
    rw [show (e.scale k).ref = e.ref from rfl]
    split
    · rfl
    · have ho : (e.scale k).interpOrient S t = e.interpOrient S t := rfl
      have hc : (e.scale k).interpCoord t = (e.interpCoord t).map (k • ·) := by
        unfold interpCoord
        match t.vals with
        | [] => rfl
        | [x] => rfl
        | x :: y :: l => simp [Comp.map, ELcs.scale, Function.comp_def]
      rw [ho]
      cases e.interpOrient S t with
      | error e => rfl
      | ok r =>
        obtain ⟨o, label⟩ := r
        simp only [hc]
        have hx : ((e.interpCoord t).map (k • · : Vec3 ℝ → Vec3 ℝ)).isSeries = (e.interpCoord t).isSeries := by
          cases e.interpCoord t <;> rfl
        rw [hx]
        split
        · cases t.asTimedelta with
          | error e => rfl
          | ok _ => cases t.referenceTime <;> rfl
        · split <;> rfl

end ELcs

namespace TEdge

theorem scale_ref (k : ℝ) (e : TEdge) : (e.scale k).ref = e.ref := by cases e <;> rfl

theorem scale_dependent (k : ℝ) (e : TEdge) : (e.scale k).dependent = e.dependent := by
  cases e with
  | discrete c => exact TLcs.scale_dependent k c
  | expression e i => rfl

theorem scale_frame_time (k : ℝ) (e : TEdge) : (e.scale k).frame.time = e.frame.time := by cases e <;> rfl

theorem interp_scale (S : Slerp) (k : ℝ) (t : Time) (tref : Option Int) (e : TEdge) :
    (e.scale k).interp S t tref = (e.interp S t tref).map (TLcs.scale k) := by
  cases e with
  | discrete c => exact TLcs.interpTime_scale S k c (some t) tref
  | expression e i => exact ELcs.interpTime_scale S k e t tref

theorem turn_scale (k : ℝ) (c : TLcs) (e : TEdge) : turn (c.scale k) (e.scale k) = (turn c e).scale k := by
  cases e with
  | discrete c => rfl
  | expression e i => cases i with
    | false => rfl
    | true => exact TLcs.invert_scale k c

theorem rebuild_scale (k : ℝ) (c : TLcs) (t : Time) : rebuild (c.scale k) t = (rebuild c t).map (TLcs.scale k) := by
  unfold rebuild
  rw [TLcs.scale_dependent]
  split
  · cases t.asTimedelta with
    | error e => rfl
    | ok _ => cases t.referenceTime <;> rfl
  · rfl

theorem interpolated_scale (S : Slerp) (k : ℝ) (csmRef : Option Int) (t : Time) (tref : Option Int) (own : Bool) (e : TEdge) :
    onEdge.interpolated S csmRef t tref own (e.scale k) =
      (onEdge.interpolated S csmRef t tref own e).map (TLcs.scale k) := by
  have other : (do .ok (turn (← (e.scale k).interp S t (if own then e.ref else tref)) (e.scale k)) : Except TimeError TLcs) =
      (do .ok (turn (← e.interp S t (if own then e.ref else tref)) e) : Except TimeError TLcs).map (TLcs.scale k) := by
    rw [interp_scale]
    cases e.interp S t (if own then e.ref else tref) with
    | error x => rfl
    | ok c => simp only [bind, Except.bind, Except.map, turn_scale]
  unfold onEdge.interpolated
  rw [scale_ref]
  cases hr : e.ref with
  | some r => rw [hr] at other; exact other
  | none => cases csmRef with
    | none => rw [hr] at other; exact other
    | some r =>
      simp only
      cases t.sub ⟨true, [r], none⟩ with
      | error x => rfl
      | ok d =>
        simp only [bind, Except.bind, interp_scale]
        cases e.interp S d none with
        | error x => rfl
        | ok c =>
          simp only [Except.map, rebuild_scale]
          cases rebuild c t with
          | error x => rfl
          | ok c => simp only [Except.map, turn_scale]

theorem onEdge_scale (S : Slerp) (k : ℝ) (csmRef : Option Int) (t : Time) (tref : Option Int) (own : Bool) (e : TEdge) :
    (e.scale k).onEdge S csmRef t tref own = (e.onEdge S csmRef t tref own).map (TLcs.scale k) := by
  have := interpolated_scale S k csmRef t tref own e
  cases e with
  | discrete c =>
    simp only [onEdge, scale] at this ⊢
    rw [TLcs.scale_dependent]
    split
    · exact this
    · rfl
  | expression e i => exact this

end TEdge

/-! ### properties -/

/-- **C99.** Interpolation in time does not depend on the unit of the coordinates, and keeps it. -/
theorem C99_interp (S : Slerp) (c : UTLcs) (time : Option Time) (timeRef : Option Int) :
    (c.interpTime S time timeRef).map UTLcs.mm = c.mm.interpTime S time timeRef ∧
    ∀ d, c.interpTime S time timeRef = .ok d → d.unit = c.unit := by
  unfold UTLcs.interpTime UTLcs.mm
  rw [TLcs.interpTime_scale]
  cases c.mag.interpTime S time timeRef with
  | error e => exact ⟨rfl, fun d h => by cases h⟩
  | ok m => exact ⟨rfl, fun d h => by cases h; rfl⟩

/-- **C99.** The sum of two systems, at rest or moving, does not depend on the units; it has the unit of the left one. -/
theorem C99_add (S : Slerp) {lhs : UTLcs} (h : 0 < lhs.unit) (rhs : UTLcs) :
    (lhs.add S rhs).map UTLcs.mm = lhs.mm.add S rhs.mm ∧ ∀ d, lhs.add S rhs = .ok d → d.unit = lhs.unit := by
  unfold UTLcs.add TLcs.add UTLcs.mm
  rw [TLcs.scale_unifyRefs]
  obtain ⟨l, r, tref⟩ := TLcs.unifyRefs lhs.mag rhs.mag
  simp only [TLcs.scale_time]
  cases l.time with
  | error e => exact ⟨rfl, fun d h => by cases h⟩
  | ok t =>
    simp only [bind, Except.bind, TLcs.interpTime_scale]
    cases r.interpTime S t tref with
    | error e => exact ⟨rfl, fun d h => by cases h⟩
    | ok r =>
      refine ⟨?_, fun d h => by cases h; rfl⟩
      simp only [Except.map, TLcs.mergeTimes_scale]
      congr 1
      simp only [TLcs.scale, TLcs.mk.injEq, true_and]
      have hc : lhs.unit * (rhs.unit / lhs.unit) = rhs.unit := mul_div_cancel₀ _ h.ne'
      have hz : ∀ (m : List (Mat3 ℝ)) (v : List (Vec3 ℝ)), List.zipWith (fun a b => lhs.unit • a *ᵥ b) m v =
          (List.zipWith (fun R T => R *ᵥ T) m v).map (lhs.unit • ·) := fun m v => by rw [List.map_zipWith]
      cases r.orient <;> cases r.coord <;> cases l.coord <;>
        simp [Comp.map₂, Comp.map, mulVec_smul, smul_smul, hc, Function.comp_def, List.zipWith_map_right, List.zipWith_map_left,
          List.map_zipWith]
      rw [hz, List.zipWith_map_left]

/-- **C99.** The inverse does not depend on the unit, and keeps it. -/
theorem C99_invert (c : UTLcs) : c.invert.mm = c.mm.invert ∧ c.invert.unit = c.unit :=
  ⟨(TLcs.invert_scale c.unit c.mag).symm, rfl⟩

/-- **C99.** Differences do not depend on the units. -/
theorem C99_sub (S : Slerp) {lhs : UTLcs} (h : 0 < lhs.unit) (rhs : UTLcs) :
    (lhs.sub S rhs).map UTLcs.mm = lhs.mm.sub S rhs.mm ∧ ∀ d, lhs.sub S rhs = .ok d → d.unit = lhs.unit := by
  unfold UTLcs.sub TLcs.sub
  rw [← (C99_invert rhs).1]
  exact C99_add S h rhs.invert

/-- what `get_cs` needs of the units on a path -/
def PositiveUnits (es : List UEdge) : Prop := ∀ e ∈ es, 0 < e.unit

/-- **C99.** A single link does not depend on the unit of the stored system, and has this unit. -/
theorem C99_link (S : Slerp) (csmRef : Option Int) (t : Time) (tref : Option Int) (own : Bool) (e : UEdge) :
    (e.onEdge S csmRef t tref own).map UTLcs.mm = e.mm.onEdge S csmRef t tref own ∧
    ∀ d, e.onEdge S csmRef t tref own = .ok d → d.unit = e.unit := by
  unfold UEdge.onEdge UEdge.mm
  rw [TEdge.onEdge_scale]
  cases e.mag.onEdge S csmRef t tref own with
  | error x => exact ⟨rfl, fun d h => by cases h⟩
  | ok c => exact ⟨rfl, fun d h => by cases h; rfl⟩

/-- **C99.** The system stored for the other direction of a link does not depend on the unit. -/
theorem C99_reverse (e : UEdge) : e.reverse.mm = e.mm.reverse ∧ e.reverse.unit = e.unit := by
  refine ⟨?_, rfl⟩
  obtain ⟨u, e⟩ := e
  cases e with
  | discrete c => exact congrArg TEdge.discrete (TLcs.invert_scale u c).symm
  | expression e i => rfl

theorem addEdgesU_mm (S : Slerp) (csmRef : Option Int) (t : Time) (tref : Option Int) : ∀ (es : List UEdge) (acc : UTLcs),
    0 < acc.unit → (addEdgesU S csmRef t tref es acc).map UTLcs.mm = addEdges S csmRef t tref (es.map UEdge.mm) acc.mm ∧
    ∀ d, addEdgesU S csmRef t tref es acc = .ok d → d.unit = acc.unit
  | [], acc, _ => ⟨rfl, fun d h => by cases h; rfl⟩
  | e :: es, acc, h => by
    simp only [addEdgesU, List.map_cons, addEdges]
    rw [← (C99_link S csmRef t tref false e).1]
    cases e.onEdge S csmRef t tref false with
    | error x => exact ⟨rfl, fun d h => by cases h⟩
    | ok c =>
      simp only [bind, Except.bind, Except.map]
      obtain ⟨h1, h2⟩ := C99_add S h c
      rw [← h1]
      cases ha : acc.add S c with
      | error x => exact ⟨rfl, fun d h => by cases h⟩
      | ok s =>
        have hs := h2 s ha
        obtain ⟨h3, h4⟩ := addEdgesU_mm S csmRef t tref es s (by rw [hs]; exact h)
        exact ⟨h3, fun d hd => (h4 d hd).trans hs⟩

/-- the unit of an answer: that of the first system of the path -/
def answerUnit : List UEdge → ℝ
  | [] => 1
  | e :: _ => e.unit

/-- **C99.** The answers of `get_cs` do not depend on the units of the systems on the path: it succeeds exactly if it succeeds
for the systems in millimetres, and gives the same system; the coordinates have the unit of the first system. -/
theorem C99_get_cs (S : Slerp) (csmRef : Option Int) {es : List UEdge} (h : PositiveUnits es) (time : Time)
    (timeRef : Option Int) :
    (getCsU S csmRef es time timeRef).map UTLcs.mm = getCs S csmRef (es.map UEdge.mm) time timeRef ∧
    ∀ d, getCsU S csmRef es time timeRef = .ok d → d.unit = answerUnit es := by
  unfold getCsU getCs
  dsimp only
  cases time.ofTime (timeRef.or csmRef) with
  | error x => exact ⟨rfl, fun d h => by cases h⟩
  | ok t =>
    simp only [bind, Except.bind]
    match es with
    | [] =>
      refine ⟨?_, fun d h => by cases h; rfl⟩
      simp [UTLcs.default, UTLcs.mm, TLcs.scale, Except.map, Comp.map]
    | [e] => exact C99_link S csmRef t _ _ e
    | e :: e' :: es =>
      obtain ⟨h1, h2⟩ := C99_link S csmRef t (timeRef.or csmRef) false e
      simp only [List.map_cons]
      rw [← h1]
      cases hc : e.onEdge S csmRef t (timeRef.or csmRef) false with
      | error x => exact ⟨rfl, fun d h => by cases h⟩
      | ok c =>
        have hu := h2 c hc
        obtain ⟨h3, h4⟩ := addEdgesU_mm S csmRef t (timeRef.or csmRef) (e' :: es) c (by rw [hu]; exact h e (by simp))
        exact ⟨h3, fun d hd => (h4 d hd).trans hu⟩

theorem addAllU_mm (S : Slerp) : ∀ (es : List UEdge) (acc : UTLcs), 0 < acc.unit → (∀ e ∈ es, ∃ c, e.mag = .discrete c) →
    (addAllU S es acc).map UTLcs.mm = addAll S (es.map UEdge.mm) acc.mm ∧ ∀ d, addAllU S es acc = .ok d → d.unit = acc.unit
  | [], acc, _, _ => ⟨rfl, fun d h => by cases h; rfl⟩
  | e :: es, acc, h, hd => by
    simp only [addAllU, List.map_cons, addAll]
    obtain ⟨h1, h2⟩ := C99_add S h ⟨e.unit, e.mag.frame⟩
    have hf : (⟨e.unit, e.mag.frame⟩ : UTLcs).mm = e.mm.frame := by
      obtain ⟨c, hc⟩ := hd e (by simp)
      obtain ⟨u, e⟩ := e
      subst hc
      rfl
    rw [hf] at h1
    rw [← h1]
    cases ha : acc.add S ⟨e.unit, e.mag.frame⟩ with
    | error x => exact ⟨rfl, fun d h => by cases h⟩
    | ok s =>
      have hs := h2 s ha
      obtain ⟨h3, h4⟩ := addAllU_mm S es s (by rw [hs]; exact h) fun e he => hd e (by simp [he])
      exact ⟨h3, fun d hd => (h4 d hd).trans hs⟩

theorem timeUnion_mm (ref : Option Int) (es : List UEdge) :
    timeUnion ref (es.map UEdge.mm) = timeUnion ref (es.map UEdge.mag) := by
  unfold timeUnion
  have : (es.map UEdge.mm).mapM (fun e => e.frame.time) = (es.map UEdge.mag).mapM (fun e => e.frame.time) := by
    rw [List.mapM_map, List.mapM_map]
    congr 1
    funext e
    exact TEdge.scale_frame_time e.unit e.mag
  rw [this]

/-- **C99.** The same for `get_cs` without a time; if no system of the path has times, none of them may be given by an expression. -/
theorem C99_get_cs_default (S : Slerp) (csmRef minRef : Option Int) {es : List UEdge} (h : PositiveUnits es)
    (hd : timeUnion (csmRef.or minRef) (es.map UEdge.mag) = .ok none → ∀ e ∈ es, ∃ c, e.mag = .discrete c) :
    (getCsDefaultU S csmRef minRef es).map UTLcs.mm = getCsDefault S csmRef minRef (es.map UEdge.mm) ∧
    ∀ d, getCsDefaultU S csmRef minRef es = .ok d → d.unit = answerUnit es := by
  unfold getCsDefaultU getCsDefault
  rw [timeUnion_mm]
  cases hT : timeUnion (csmRef.or minRef) (es.map UEdge.mag) with
  | error x => exact ⟨rfl, fun d h => by cases h⟩
  | ok u => cases u with
    | some t => exact C99_get_cs S csmRef h t none
    | none => match es with
      | [] =>
        refine ⟨?_, fun d h => by cases h; rfl⟩
        simp [UTLcs.default, UTLcs.mm, TLcs.scale, Except.map, Comp.map, bind, Except.bind]
      | e :: es =>
        have hf : (⟨e.unit, e.mag.frame⟩ : UTLcs).mm = e.mm.frame := by
          obtain ⟨c, hc⟩ := hd hT e (by simp)
          obtain ⟨u, e⟩ := e
          subst hc
          rfl
        have := addAllU_mm S es ⟨e.unit, e.mag.frame⟩ (h e (by simp)) fun e he => hd hT e (by simp [he])
        rw [hf] at this
        exact this

/-! ### data -/

/-- **C99.** Transformed data are those of the system in millimetres; they keep the unit of the data. -/
theorem C99_transform {u v : ℝ} (hv : 0 < v) (f : Lcs ℝ) (l : List (Vec3 ℝ)) :
    ∃ m, UTLcs.transform u f (.quantity v l) = .ok (.quantity v m) ∧
      (Points.quantity v m).mm = (Points.quantity v l).mm.map (Lcs.toParent ⟨f.orientation, u • f.coordinates⟩) := by
  refine ⟨_, rfl, ?_⟩
  simp only [Points.mm, List.map_map]
  refine List.map_congr_left fun p _ => ?_
  simp only [Function.comp, Lcs.toParent_eq, smul_add, smul_smul, mulVec_smul, mul_div_cancel₀ _ hv.ne']

/-- **C99.** Transforming there and back returns the data with their unit. -/
theorem C99_transform_back {u u' v : ℝ} (hv : 0 < v) {f : Lcs ℝ} (hf : f.Orthonormal) {g : Lcs ℝ}
    (hg : (⟨g.orientation, u' • g.coordinates⟩ : Lcs ℝ) = Lcs.invert ⟨f.orientation, u • f.coordinates⟩) (l : List (Vec3 ℝ)) :
    ∃ m, UTLcs.transform u f (.quantity v l) = .ok (.quantity v m) ∧
      UTLcs.transform u' g (.quantity v m) = .ok (.quantity v l) := by
  obtain ⟨m, h1, h2⟩ := C99_transform (u := u) hv f l
  obtain ⟨n, h3, h4⟩ := C99_transform (u := u') hv g m
  refine ⟨m, h1, ?_⟩
  rw [h3]
  congr 2
  rw [h2, hg, List.map_map] at h4
  have ho : (⟨f.orientation, u • f.coordinates⟩ : Lcs ℝ).Orthonormal := by
    rw [Lcs.orthonormal_iff] at hf ⊢
    exact hf
  have hi : (Points.quantity v n).mm = (Points.quantity v l).mm := by
    rw [h4]
    conv_rhs => rw [← List.map_id (Points.quantity v l).mm]
    refine List.map_congr_left fun p _ => ?_
    exact (C02_invert_inverse _ ho p).1
  have inj : Function.Injective (fun p : Vec3 ℝ => v • p) := smul_right_injective _ hv.ne'
  exact List.map_injective_iff.2 inj hi

/-- **C99.** Points without unit are rejected, unless all of them are zero: then they are the origin, and the result has the
unit of the system. -/
theorem C99_transform_plain {u : ℝ} {f : Lcs ℝ} (hf : f.Orthonormal) (l : List (Vec3 ℝ)) :
    UTLcs.transform u f (.plain l) =
      if ∀ p ∈ l, p = 0 then .ok (.quantity u (l.map fun _ => f.coordinates)) else .error .dimensionality := by
  have hz : ∀ p : Vec3 ℝ, f.orientation *ᵥ p = 0 ↔ p = 0 := by
    intro p
    refine ⟨fun h => ?_, fun h => by rw [h, mulVec_zero]⟩
    rw [Lcs.orthonormal_iff] at hf
    have := congrArg (f.orientationᵀ *ᵥ ·) h
    simp only [mulVec_mulVec, mulVec_zero] at this
    rw [show f.orientationᵀ * f.orientation = 1 from by first | exact hf | exact mul_eq_one_comm.1 hf, one_mulVec] at this
    exact this
  unfold UTLcs.transform
  have hall : (∀ p ∈ l.map fun p => f.orientation *ᵥ p, p = 0) ↔ ∀ p ∈ l, p = 0 := by
    simp [hz]
  simp only [hall]
  split
  · next h =>
    congr 2
    rw [List.map_map]
    refine List.map_congr_left fun p hp => ?_
    simp [h p hp]
  · rfl

/-! ### values -/

theorem compAll_map {P : Vec3 ℝ → Prop} {k : ℝ} {c : Comp (Vec3 ℝ)} : TLcs.CompAll P (c.map (k • ·)) ↔ TLcs.CompAll (fun v => P (k • v)) c := by
  cases c with
  | static v => rfl
  | series l => simp [TLcs.CompAll, Comp.map]

theorem TLcs.WF.scale {c : TLcs} (h : c.WF) (k : ℝ) : (c.scale k).WF := by
  refine ⟨fun hd => ?_, fun hd => ?_, h.ref, h.rot⟩
  · rw [TLcs.scale_dependent] at hd
    obtain ⟨l, h1, h2, h3, h4, h5⟩ := h.series hd
    refine ⟨l, h1, h2, h3, h4, ?_⟩
    show TLcs.CompLen l.length (c.coord.map (k • ·))
    cases hc : c.coord with
    | static v => trivial
    | series m =>
      rw [hc] at h5
      simpa [TLcs.CompLen, Comp.map] using h5
  · rw [TLcs.scale_dependent] at hd
    exact h.label hd

theorem TEdge.WF.scale {e : TEdge} (h : e.WF) (k : ℝ) : (e.scale k).WF := by
  cases e with
  | discrete c => exact ⟨h.1.scale k, fun hd => h.2 (by rw [TLcs.scale_dependent] at hd; exact hd)⟩
  | expression e i => exact h

/-- **C99.** What an answer means: at each requested time, the system that `get_cs` returns moves points, both measured in
millimetres, like the systems of the path one after the other; whatever the units of the systems are. -/
theorem C99_answers {S : Slerp} (hS : SlerpOk S) {csmRef timeRef : Option Int} {time t : Time}
    (ht : time.ofTime (timeRef.or csmRef) = .ok t) (hta : t.vals.Pairwise (· < ·)) (hne : t.vals ≠ []) {es : List UEdge}
    (hu : PositiveUnits es)
    (he : ∀ e ∈ es, e.mag.WF ∧ (e.mag.dependent = true → csmRef = none → e.mag.ref.isSome = t.abs)) :
    ∃ s, getCsU S csmRef es time timeRef = .ok s ∧ s.unit = answerUnit es ∧
      ∀ x ∈ t.vals, ∀ fs, List.Forall₂ (fun e g => e.mm.AtCsm S csmRef x g) es fs →
        ∃ f, s.mm.At S x f ∧ ∀ p, f.toParent p = along fs p := by
  obtain ⟨h1, h2⟩ := C99_get_cs S csmRef hu time timeRef
  obtain ⟨s, hs, _, _, h3⟩ := C62_get_cs hS ht hta hne (es := es.map UEdge.mm) (by
    intro e h
    obtain ⟨e, h', rfl⟩ := List.mem_map.1 h
    obtain ⟨a, b⟩ := he e h'
    refine ⟨a.scale e.unit, ?_⟩
    unfold UEdge.mm
    rw [TEdge.scale_dependent, TEdge.scale_ref]
    exact b)
  rw [hs] at h1
  cases hc : getCsU S csmRef es time timeRef with
  | error x => rw [hc] at h1; cases h1
  | ok c =>
    rw [hc] at h1
    have e : c.mm = s := by injection h1
    refine ⟨c, rfl, h2 c hc, fun x hx fs hf => ?_⟩
    rw [e]
    refine h3 x hx fs ?_
    rw [List.forall₂_map_left_iff]
    exact hf

/-- a path with a tool in millimetres, a robot in centimetres that moves, and a fixture in metres -/
example : let es : List UEdge := [⟨1, .discrete ⟨none, none, .static 1, .static ![1, 0, 0]⟩⟩,
      ⟨10, .discrete ⟨some [0, 10], none, .static 1, .series [![0, 0, 0], ![0, 5, 0]]⟩⟩,
      ⟨1000, .discrete ⟨none, none, .static 1, .static ![0, 0, 2]⟩⟩]
    PositiveUnits es ∧ ∀ e ∈ es, e.mag.WF ∧ (e.mag.dependent = true → (none : Option Int) = none → e.mag.ref.isSome = false) := by
  have hr : Rotation (1 : Mat3 ℝ) := ⟨by simp, by simp⟩
  have st : ∀ v : Vec3 ℝ, (TLcs.mk none none (.static 1) (.static v)).WF := fun v =>
    ⟨(fun h => by cases h), (fun _ => .inl rfl), (fun _ => rfl), hr⟩
  intro es
  refine ⟨?_, ?_⟩
  · intro e he
    simp only [es, List.mem_cons, List.not_mem_nil, or_false] at he
    rcases he with rfl | rfl | rfl <;> norm_num
  · intro e he
    simp only [es, List.mem_cons, List.not_mem_nil, or_false] at he
    rcases he with rfl | rfl | rfl
    · exact ⟨⟨st _, fun _ => rfl⟩, fun _ _ => rfl⟩
    · refine ⟨⟨⟨fun _ => ⟨[0, 10], rfl, by simp, by simp, trivial, rfl⟩, (fun h => by cases h), (fun h => by cases h), hr⟩, (fun h => by cases h)⟩,
        fun _ _ => rfl⟩
    · exact ⟨⟨st _, fun _ => rfl⟩, fun _ _ => rfl⟩

/-- the sum of one centimetre and two metres is 201 centimetres -/
example (S : Slerp) : ∃ s, getCsU S none [⟨10, .discrete ⟨none, none, .static 1, .static ![1, 0, 0]⟩⟩,
      ⟨1000, .discrete ⟨none, none, .static 1, .static ![2, 0, 0]⟩⟩] ⟨false, [0], none⟩ none = .ok s ∧
    s.unit = 10 ∧ s.mag.coord = .static ![201, 0, 0] := by
  refine ⟨⟨10, none, none, .static 1, .static ![201, 0, 0]⟩, ?_, rfl, rfl⟩
  have : (⟨false, [0], none⟩ : Time).ofTime none = .ok ⟨false, [0], none⟩ := by rfl
  simp only [getCsU, Option.or, this, bind, Except.bind, addEdgesU, UEdge.onEdge, TEdge.onEdge, TLcs.dependent, Comp.isSeries,
    Bool.or_self, Bool.false_eq_true, if_false, Except.map, UTLcs.add, TLcs.unifyRefs, TLcs.time, TLcs.interpTime,
    TLcs.mergeTimes, Comp.map₂, Option.isSome]
  norm_num

/-! ### the test for a system at the origin -/

/-- **C99.** The test whether a system at rest lies in the origin of its parent has a tolerance in the unit of the
coordinates. -/
theorem C99_unity {c : UTLcs} (h : 0 < c.unit) {v : Vec3 ℝ} (hv : c.mag.coord = .static v) :
    c.isUnityTranslation = true ↔ ∀ i, |(c.unit • v) i| ≤ c.unit / 100000000 := by
  unfold UTLcs.isUnityTranslation nearZero
  rw [hv]
  simp only [List.mem_singleton, forall_eq, decide_eq_true_eq, Pi.smul_apply, smul_eq_mul, abs_mul, abs_of_pos h]
  refine forall_congr' fun i => ?_
  rw [show c.unit / 100000000 = c.unit * (1 / 100000000) by ring, mul_le_mul_iff_right₀ h]

/-- the same for a moving system: all its positions are tested -/
theorem C99_unity_series {c : UTLcs} (h : 0 < c.unit) {l : List (Vec3 ℝ)} (hl : c.mag.coord = .series l) :
    c.isUnityTranslation = true ↔ ∀ v ∈ l, ∀ i, |(c.unit • v) i| ≤ c.unit / 100000000 := by
  unfold UTLcs.isUnityTranslation nearZero
  rw [hl]
  simp only [decide_eq_true_eq, Pi.smul_apply, smul_eq_mul, abs_mul, abs_of_pos h]
  refine forall₂_congr fun v _ => forall_congr' fun i => ?_
  rw [show c.unit / 100000000 = c.unit * (1 / 100000000) by ring, mul_le_mul_iff_right₀ h]

/-- **C99.** So the statement is false for this test: the same system, ten nanometres from the origin, is in the origin if its
coordinates are given in metres, and is not if they are given in millimetres. -/
theorem C99_unity_counterexample : ∃ a b : UTLcs, 0 < a.unit ∧ 0 < b.unit ∧ a.mm = b.mm ∧ a.isUnityTranslation = true ∧
    b.isUnityTranslation = false := by
  refine ⟨⟨1000, none, none, .static 1, .static ![1 / 100000000, 0, 0]⟩, ⟨1, none, none, .static 1, .static ![1 / 100000, 0, 0]⟩,
    by norm_num, by norm_num, ?_, ?_, ?_⟩
  · simp only [UTLcs.mm, TLcs.scale, Comp.map, TLcs.mk.injEq, true_and, Comp.static.injEq]
    ext i
    fin_cases i <;> norm_num
  · rw [C99_unity (by norm_num) rfl]
    intro i
    fin_cases i <;> norm_num
  · rw [← Bool.not_eq_true, C99_unity (by norm_num) rfl]
    intro h
    have := h 0
    norm_num at this

end Weldx
