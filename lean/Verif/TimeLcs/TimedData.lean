import Verif.TimeLcs.FileAnswer
import Verif.Time.Convert

/-!
# Data with and without times in a manager with moving systems (C105)

Source: `/repo/weldx/transformations/cs_manager.py` 974-1006 (`get_data`), 1709-1757 (`transform_data`);
`/repo/weldx/util/xarray.py` 167-175 (`xr_matmul`); `/repo/weldx/time.py` 680-693 (`_convert_xarray`).

The product in `xr_matmul` is `xr.apply_ufunc`, whose default is `join="exact"`: the coordinates `time` of both arguments must be equal.
The sum of two arrays of xarray uses `arithmetic_join="inner"`: only common values of the coordinate are kept. Both compare time deltas;
the attribute `time_ref` of the coordinate plays no role and is taken from the first argument that has the dimension.

Simplifications: those of `Verif/TimeLcs/Manager.lean`; data are lists of points with a unit of length; the times of data are strictly
increasing time deltas. Attributes and triangles of `SpatialData` are passed on as they are and are not modelled.
-/

set_option linter.unusedSectionVars false

namespace Weldx

open Ip Matrix Csm TLcs

/-! ### model -/

/-- an array with or without the dimension `time`: the attribute `time_ref` of the coordinate, its time deltas and the values -/
inductive Lab (A : Type)
  | static (v : A)
  | series (ref : Option Int) (l : List (Int × A))

namespace Lab
variable {A B C : Type}

/-- `xr.apply_ufunc` with `join="exact"` -/
def exact (f : A → B → C) : Lab A → Lab B → Option (Lab C)
  | static a, static b => some (static (f a b))
  | static a, series r l => some (series r (l.map fun e => (e.1, f a e.2)))
  | series r l, static b => some (series r (l.map fun e => (e.1, f e.2 b)))
  | series r l, series _ k =>
    if l.map Prod.fst = k.map Prod.fst then some (series r (List.zipWith (fun a b => (a.1, f a.2 b.2)) l k)) else none

/-- an operator of xarray with `arithmetic_join="inner"` -/
def inner (f : A → B → C) : Lab A → Lab B → Lab C
  | static a, static b => static (f a b)
  | static a, series r l => series r (l.map fun e => (e.1, f a e.2))
  | series r l, static b => series r (l.map fun e => (e.1, f e.2 b))
  | series r l, series _ k => series r (l.filterMap fun e => (Dict.get? k e.1).map fun b => (e.1, f e.2 b))

end Lab

/-- a variable of a `LocalCoordinateSystem` as array -/
def TLcs.lab {V : Type} (c : TLcs) : Comp V → Lab V
  | .static v => .static v
  | .series l => .series c.ref ((c.times.getD []).zip l)

/-- points with a unit of length in millimetres -/
structure SData where
  unit : ℝ
  pts : Lab (List (Vec3 ℝ))

/-- the last step of `transform_data`, `cs_manager.py` 1754-1757 -/
noncomputable def UTLcs.apply (s : UTLcs) (d : SData) : Option SData :=
  match Lab.exact (fun R l => l.map fun p => R *ᵥ p) (s.mag.lab s.mag.orient) d.pts with
  | none => none
  | some p => some ⟨d.unit, p.inner (fun l c => l.map fun p => p + (s.unit / d.unit) • c) (s.mag.lab s.mag.coord)⟩

/-- the times of the data, `cs_manager.py` 1749; `_convert_xarray`, `time.py` 680-693 -/
def SData.time (d : SData) : Option Time := match d.pts with
  | .static _ => none
  | .series ref l => some ⟨ref.isSome, l.map fun e => e.1 + ref.getD 0, none⟩

namespace Csm
variable {N D : Type} [DecidableEq N]

/-- `get_cs` as it is called by `transform_data`, `cs_manager.py` 1750-1752 -/
noncomputable def getFor (S : Slerp) (m : Csm N UEdge D) (d : SData) (a b : N) : Except (CsmError ⊕ TimeError) UTLcs := match d.time with
  | none => m.getAlways S a b
  | some t => m.getAt S a b t none

/-- `transform_data`, `cs_manager.py` 1709-1757; arrays with different times are a `ValueError` -/
noncomputable def transformTimed (S : Slerp) (m : Csm N UEdge D) (d : SData) (a b : N) : Except (CsmError ⊕ TimeError) SData :=
  match m.getFor S d a b with
  | .error x => .error x
  | .ok s => match s.apply d with
    | none => .error (.inr .valueError)
    | some r => .ok r

/-- `get_data`, `cs_manager.py` 974-1006 -/
noncomputable def getTimed (S : Slerp) (m : Csm N UEdge SData) (d : N) (target : Option N) : Except (CsmError ⊕ TimeError) SData :=
  match m.findData d with
  | .error x => .error (.inl x)
  | .ok (cs, data) => match target with
    | none => .ok data
    | some t => if t = cs then .ok data else m.transformTimed S data cs t

/-! ### specification -/

/-- the point in time that belongs to a time delta of data: it counts from the reference time of the data, or from the one of the
manager if the data have none -/
def moment (m : Csm N UEdge D) (ref : Option Int) (x : Int) : Int := x + (ref.or m.refTime).getD 0

end Csm

/-- the points in millimetres -/
noncomputable def inMm (u : ℝ) (l : List (Vec3 ℝ)) : List (Vec3 ℝ) := l.map fun p => u • p

/-! ### lemmas -/

/-- the time of data is converted as in `Verif/Time/Convert.lean` -/
theorem time_convert (u : ℝ) (ref : Option Int) (l : List (Int × List (Vec3 ℝ))) (r : Option Int) :
    ∃ t, SData.time ⟨u, .series ref l⟩ = some t ∧ t.ofTime r = Time.ofDataArray ⟨false, l.map Prod.fst, ref⟩ r := by
  refine ⟨_, rfl, ?_⟩
  cases ref with
  | none =>
    cases r <;> simp [Time.ofTime, Time.ofDataArray]
  | some q =>
    cases r <;> simp [Time.ofTime, Time.ofDataArray, List.map_map, Function.comp_def]

theorem getCs_ref {S : Slerp} (hS : SlerpOk S) {csmRef timeRef : Option Int} {time t : Time}
    (ht : time.ofTime (timeRef.or csmRef) = .ok t) (hta : t.vals.Pairwise (· < ·)) (hne : t.vals ≠ [])
    (hr : (timeRef.or csmRef).isSome = true ∨ t.abs = false) {es : List TEdge}
    (he : ∀ e ∈ es, e.WF ∧ (e.dependent = true → csmRef = none → e.ref.isSome = t.abs)) {s : TLcs}
    (hs : getCs S csmRef es time timeRef = .ok s) (hd : s.dependent = true) : t.referenceTime = .ok s.ref := by
  obtain ⟨_, o2, o3⟩ := TLcs.ofTime_ok ht
  have hq : TEdge.Query csmRef (timeRef.or csmRef) t := by
    refine ⟨hta, hne, fun r hr => by rw [o3, hr]; rfl, fun h => ?_, fun h => ?_⟩
    · rw [o2] at h
      rw [o3]
      simpa using (Bool.or_eq_false_iff.1 h).2
    · rw [o2]
      obtain ⟨r, rfl⟩ := Option.isSome_iff_exists.1 h
      cases timeRef <;> simp
  have fin : ∀ s : TLcs, TEdge.Known t s → s.dependent = true → t.referenceTime = .ok s.ref := by
    intro s h hd
    rcases h.2 with h | h
    · exact h.2.2
    · rw [hd] at h; cases h.1
  unfold getCs at hs
  simp only [ht, bind, Except.bind] at hs
  match es, he with
  | [], _ => cases hs; cases hd
  | [e], he =>
    have hsame : e.onEdge S csmRef t (timeRef.or csmRef) (timeRef.or csmRef).isNone = e.onEdge S csmRef t (timeRef.or csmRef) false := by
      cases htr : timeRef.or csmRef with
      | some r => rfl
      | none =>
        have hc : csmRef = none := by
          cases timeRef <;> simp_all
        have hab : t.abs = false := hr.resolve_left (by rw [htr]; simp)
        have hk := (he e (by simp)).2
        have main : e.dependent = true → TEdge.onEdge.interpolated S csmRef t none true e = TEdge.onEdge.interpolated S csmRef t none false e := by
          intro hdep
          have he' : e.ref = none := by
            have := hk hdep hc
            rw [hab] at this
            simpa using this
          unfold TEdge.onEdge.interpolated
          rw [he']
          rfl
        cases e with
        | discrete c =>
          show (if c.dependent then _ else _) = (if c.dependent then _ else _)
          by_cases hdep : c.dependent = true
          · rw [if_pos hdep, if_pos hdep]; exact main hdep
          · rw [if_neg hdep, if_neg hdep]
        | expression c i => exact main rfl
    simp only at hs
    rw [hsame] at hs
    obtain ⟨r, hr', _, hk, _⟩ := TEdge.onEdge_spec hS hq false (he e (by simp)).1 (he e (by simp)).2
    rw [hr'] at hs
    cases hs
    exact fin _ (hk rfl) hd
  | e :: e' :: es, he =>
    obtain ⟨r, hr, _, hk, hat⟩ := TEdge.onEdge_spec hS hq false (he e (by simp)).1 (he e (by simp)).2
    obtain ⟨s', hs', sk, sat⟩ := addEdges_spec hS hq (es := e' :: es) (fun e' h => he e' (by simp [List.mem_cons.1 h])) (hk rfl)
    simp only [hr, hs'] at hs
    cases hs
    exact fin _ sk hd

namespace Csm
variable {N D : Type} [DecidableEq N]

/-- the reference time of the answer of `get_cs` -/
theorem getAt_ref {S : Slerp} (hS : SlerpOk S) {m : Csm N UEdge D} (I : Inv m) {a b : N} (ha : a ∈ m.names) (hb : b ∈ m.names)
    {time t : Time} {timeRef : Option Int} (ht : time.ofTime (timeRef.or m.refTime) = .ok t) (hta : t.vals.Pairwise (· < ·))
    (hne : t.vals ≠ []) (hr : (timeRef.or m.refTime).isSome = true ∨ t.abs = false)
    (hu : ∀ a b e, m.Supplied a b e → Sound m.refTime t.abs e) {s : UTLcs} (hs : m.getAt S a b time timeRef = .ok s)
    (hd : s.mag.dependent = true) : t.referenceTime = .ok s.mag.ref := by
  have hh : ¬(¬ m.has a = true ∨ ¬ m.has b = true) := by simp [Csm.has, ha, hb]
  unfold getAt at hs
  rw [if_neg hh] at hs
  obtain ⟨p, hp⟩ := I.tree.exists_path a b ha hb
  by_cases hab : a = b
  · rw [if_pos hab] at hs
    cases hs; cases hd
  · rw [if_neg hab] at hs
    obtain ⟨es, h1, h2, _, _⟩ := linksOn_spec (S := S) I hu hp.1
    rw [(shortestPath_iff I ha hb).2 hp] at hs
    simp only [h1] at hs
    cases hg : getCsU S m.refTime es time timeRef with
    | error x => rw [hg] at hs; cases hs
    | ok c =>
      rw [hg] at hs
      cases hs
      obtain ⟨k1, _⟩ := C99_get_cs S m.refTime (es := es) (fun e he => (h2 e he).unit) time timeRef
      rw [hg] at k1
      have := getCs_ref hS ht hta hne hr (es := es.map UEdge.mm) (by
        intro e h
        obtain ⟨e, h', rfl⟩ := List.mem_map.1 h
        exact ⟨(h2 e h').wf, (h2 e h').kind_mm⟩) k1.symm (by rw [UTLcs.mm, TLcs.scale_dependent]; exact hd)
      exact this

end Csm

namespace Lab
variable {A B C : Type}

theorem filterMap_zip {k0 : List (Int × B)} {f : A → B → C} : ∀ {l : List (Int × A)} {k : List (Int × B)},
    List.Forall₂ (fun e b => Dict.get? k0 e.1 = some b.2) l k →
    l.filterMap (fun e => (Dict.get? k0 e.1).map fun b => (e.1, f e.2 b)) = List.zipWith (fun a b => (a.1, f a.2 b.2)) l k
  | _, _, .nil => rfl
  | _, _, .cons h t => by
    rw [List.filterMap_cons, h]
    simp only [Option.map_some, List.zipWith_cons_cons, filterMap_zip t]

/-- with the same times nothing is dropped -/
theorem inner_same {f : A → B → C} {r q : Option Int} {l : List (Int × A)} {k : List (Int × B)} (h : l.map Prod.fst = k.map Prod.fst)
    (hn : (k.map Prod.fst).Nodup) : inner f (series r l) (series q k) = series r (List.zipWith (fun a b => (a.1, f a.2 b.2)) l k) := by
  show series r (l.filterMap _) = _
  rw [filterMap_zip]
  rw [List.forall₂_iff_get]
  have hlen : l.length = k.length := by simpa using congrArg List.length h
  refine ⟨hlen, fun i hi hi' => ?_⟩
  have : (l.get ⟨i, hi⟩).1 = (k.get ⟨i, hi'⟩).1 := by
    have := congrArg (fun x => x[i]?) h
    simp only [List.getElem?_map, List.getElem?_eq_getElem hi, List.getElem?_eq_getElem hi', Option.map_some, Option.some.injEq] at this
    exact this
  rw [this]
  exact Dict.get?_of_mem hn (List.get_mem k ⟨i, hi'⟩)

end Lab

theorem lab_series {V : Type} {c : TLcs} {l : List V} {ts : List Int} (h : c.times = some ts) (hl : CompLen ts.length (.series l)) :
    c.lab (.series l) = .series c.ref (ts.zip l) ∧ (ts.zip l).map Prod.fst = ts := by
  have hl' : l.length = ts.length := hl
  refine ⟨by simp [TLcs.lab, h], ?_⟩
  rw [List.map_fst_zip]
  omega

/-- the last step of `transform_data` for data and a system with the same times -/
theorem apply_spec {s : UTLcs} (hw : s.mm.WF) (u : ℝ) (ref : Option Int) {l : List (Int × List (Vec3 ℝ))} (hn : (l.map Prod.fst).Nodup)
    (ht : s.mag.dependent = true → s.mag.times = some (l.map Prod.fst)) :
    ∃ ref' l', s.apply ⟨u, .series ref l⟩ = some ⟨u, .series ref' l'⟩ ∧ (ref' = ref ∨ (s.mag.dependent = true ∧ ref' = s.mag.ref)) ∧
      l'.length = l.length ∧ ∀ i e, l[i]? = some e → ∃ R c, s.mag.orient.get? i = some R ∧ s.mag.coord.get? i = some c ∧
        l'[i]? = some (e.1, e.2.map fun p => R *ᵥ p + (s.unit / u) • c) := by
  have lens : s.mag.dependent = true → CompLen l.length s.mag.orient ∧ CompLen l.length s.mag.coord := by
    intro hd
    obtain ⟨ts, h1, _, _, h3, h4⟩ := hw.series (by rw [UTLcs.mm, TLcs.scale_dependent]; exact hd)
    have h1' : s.mag.times = some ts := h1
    rw [ht hd] at h1'
    cases h1'
    rw [List.length_map] at h3 h4
    refine ⟨h3, ?_⟩
    have h4' : CompLen l.length (s.mag.coord.map (s.unit • ·)) := h4
    cases hc : s.mag.coord with
    | static v => trivial
    | series k => rw [hc] at h4'; simpa [Comp.map, CompLen] using h4'
  unfold UTLcs.apply
  cases ho : s.mag.orient with
  | static R =>
    cases hc : s.mag.coord with
    | static c =>
      refine ⟨ref, _, rfl, .inl rfl, by simp, fun i e hi => ⟨R, c, rfl, rfl, ?_⟩⟩
      simp [hi, List.map_map, Function.comp_def]
    | series kc =>
      have hd : s.mag.dependent = true := by simp [TLcs.dependent, hc, Comp.isSeries]
      have lc : kc.length = l.length := by have := (lens hd).2; rw [hc] at this; exact this
      obtain ⟨e1, e2⟩ := lab_series (l := kc) (ht hd) (by simpa [CompLen] using lc)
      rw [e1]
      simp only [TLcs.lab, Lab.exact]
      rw [Lab.inner_same (by rw [e2]; simp [List.map_map, Function.comp_def]) (by rw [e2]; exact hn)]
      refine ⟨ref, _, rfl, .inl rfl, by simp [lc], fun i e hi => ?_⟩
      have hil : i < kc.length := by rw [lc]; exact (List.getElem?_eq_some_iff.1 hi).1
      refine ⟨R, kc[i], rfl, List.getElem?_eq_getElem hil, ?_⟩
      simp [List.getElem?_zipWith, hi, List.getElem?_eq_getElem hil, List.zip, List.map_map, Function.comp_def]
  | series ko =>
    have hd : s.mag.dependent = true := by simp [TLcs.dependent, ho, Comp.isSeries]
    have lo : ko.length = l.length := by have := (lens hd).1; rw [ho] at this; exact this
    obtain ⟨o1, o2⟩ := lab_series (l := ko) (ht hd) (by simpa [CompLen] using lo)
    rw [o1]
    simp only [Lab.exact]
    rw [if_pos o2]
    cases hc : s.mag.coord with
    | static c =>
      refine ⟨s.mag.ref, _, rfl, .inr ⟨hd, rfl⟩, by simp [lo], fun i e hi => ?_⟩
      have hil : i < ko.length := by rw [lo]; exact (List.getElem?_eq_some_iff.1 hi).1
      refine ⟨ko[i], c, List.getElem?_eq_getElem hil, rfl, ?_⟩
      simp [List.getElem?_zipWith, hi, List.getElem?_eq_getElem hil, List.zip, List.map_map, Function.comp_def]
    | series kc =>
      have lc : kc.length = l.length := by have := (lens hd).2; rw [hc] at this; exact this
      obtain ⟨e1, e2⟩ := lab_series (l := kc) (ht hd) (by simpa [CompLen] using lc)
      rw [e1]
      simp only
      rw [Lab.inner_same (by
        rw [e2]
        refine List.ext_getElem (by simp [lo]) fun i h1 h2 => ?_
        simp [List.zip]) (by rw [e2]; exact hn)]
      refine ⟨s.mag.ref, _, rfl, .inr ⟨hd, rfl⟩, by simp [lo, lc], fun i e hi => ?_⟩
      have hio : i < ko.length := by rw [lo]; exact (List.getElem?_eq_some_iff.1 hi).1
      have hil : i < kc.length := by rw [lc]; exact (List.getElem?_eq_some_iff.1 hi).1
      refine ⟨ko[i], kc[i], List.getElem?_eq_getElem hio, List.getElem?_eq_getElem hil, ?_⟩
      simp [List.getElem?_zipWith, hi, List.getElem?_eq_getElem hil, List.getElem?_eq_getElem hio, List.zip, List.map_map, Function.comp_def]

/-- the entries of a system with an index in terms of its value in millimetres -/
theorem entries_value {S : Slerp} (hS : SlerpOk S) {s : UTLcs} (hw : s.mag.dependent = true → s.mm.WF) {i : ℕ} {x : Int}
    (hx : s.mag.dependent = true → s.mag.clock[i]? = some x) {f : Lcs ℝ} (hf : s.mm.At S x f) {R : Mat3 ℝ} {c : Vec3 ℝ}
    (hR : s.mag.orient.get? i = some R) (hc : s.mag.coord.get? i = some c) {u : ℝ} (hu : 0 < u) (l : List (Vec3 ℝ)) :
    inMm u (l.map fun p => R *ᵥ p + (s.unit / u) • c) = (inMm u l).map f.toParent := by
  have key : f.orientation = R ∧ f.coordinates = s.unit • c := by
    by_cases hd : s.mag.dependent = true
    · obtain ⟨h1, h2⟩ := (TLcs.At_sample hS (hw hd) (show s.mm.clock[i]? = some x from hx hd) f).1 hf
      have h1' : s.mag.orient.get? i = some f.orientation := h1
      have h2' : (s.mag.coord.map (s.unit • ·)).get? i = some f.coordinates := h2
      rw [Comp.get?_map, hc] at h2'
      rw [hR] at h1'
      exact ⟨(Option.some.inj h1').symm, (Option.some.inj h2').symm⟩
    · obtain ⟨g, h1, h2, h3⟩ := TLcs.At_static (S := S) (c := s.mm) (by rw [UTLcs.mm, TLcs.scale_dependent]; simpa using hd)
      rw [(h3 x f).1 hf]
      have h1' : s.mag.orient = .static g.orientation := h1
      have h2' : (s.mag.coord.map (s.unit • ·)).get? i = some g.coordinates := by
        have : s.mag.coord.map (s.unit • ·) = .static g.coordinates := h2
        rw [this]; rfl
      rw [Comp.get?_map, hc] at h2'
      rw [h1'] at hR
      exact ⟨Option.some.inj hR, (Option.some.inj h2').symm⟩
  unfold inMm
  rw [List.map_map, List.map_map]
  refine List.map_congr_left fun p _ => ?_
  have : f.toParent (u • p) = f.orientation *ᵥ (u • p) + f.coordinates := Lcs.toParent_eq _ _
  simp only [Function.comp_apply]
  rw [this, key.1, key.2, smul_add, Matrix.mulVec_smul, smul_smul, mul_div_cancel₀ _ hu.ne']

/-- the last step of `transform_data` for data without times -/
theorem apply_static (s : UTLcs) (hw : s.mag.dependent = true → s.mm.WF) (u : ℝ) (pts : List (Vec3 ℝ)) :
    (s.mag.dependent = false → ∃ R c, s.mag.orient.get? 0 = some R ∧ s.mag.coord.get? 0 = some c ∧
      s.apply ⟨u, .static pts⟩ = some ⟨u, .static (pts.map fun p => R *ᵥ p + (s.unit / u) • c)⟩) ∧
    (s.mag.dependent = true → ∃ ts l', s.mag.times = some ts ∧ s.apply ⟨u, .static pts⟩ = some ⟨u, .series s.mag.ref l'⟩ ∧ l'.map Prod.fst = ts ∧
      ∀ i e, l'[i]? = some e → ∃ R c, s.mag.orient.get? i = some R ∧ s.mag.coord.get? i = some c ∧
        e.2 = pts.map fun p => R *ᵥ p + (s.unit / u) • c) := by
  refine ⟨fun hd => ?_, fun hd => ?_⟩
  · unfold TLcs.dependent at hd
    unfold UTLcs.apply
    cases ho : s.mag.orient with
    | series ko => rw [ho] at hd; simp [Comp.isSeries] at hd
    | static R =>
      cases hc : s.mag.coord with
      | series kc => rw [hc] at hd; simp [Comp.isSeries] at hd
      | static c =>
        refine ⟨R, c, rfl, rfl, ?_⟩
        simp [TLcs.lab, Lab.exact, Lab.inner, List.map_map, Function.comp_def]
  · obtain ⟨ts, t1, _, ta, t3, t4⟩ := (hw hd).series (by rw [UTLcs.mm, TLcs.scale_dependent]; exact hd)
    have t1' : s.mag.times = some ts := t1
    have t3' : CompLen ts.length s.mag.orient := t3
    have t4' : CompLen ts.length s.mag.coord := by
      have h : CompLen ts.length (s.mag.coord.map (s.unit • ·)) := t4
      cases hc : s.mag.coord with
      | static v => trivial
      | series k => rw [hc] at h; simpa [Comp.map, CompLen] using h
    have nd : ts.Nodup := ta.imp fun h => by omega
    unfold UTLcs.apply
    cases ho : s.mag.orient with
    | static R =>
      cases hc : s.mag.coord with
      | static c => simp [TLcs.dependent, ho, hc, Comp.isSeries] at hd
      | series kc =>
        rw [hc] at t4'
        obtain ⟨e1, e2⟩ := lab_series t1' t4'
        rw [e1]
        refine ⟨ts, _, t1', rfl, by rw [List.map_map]; exact e2, fun i e hi => ?_⟩
        rw [List.getElem?_map] at hi
        obtain ⟨z, hz, rfl⟩ := Option.map_eq_some_iff.1 hi
        obtain ⟨_, z2⟩ := List.getElem?_zip_eq_some.1 hz
        refine ⟨R, z.2, rfl, z2, ?_⟩
        simp [List.map_map, Function.comp_def]
    | series ko =>
      rw [ho] at t3'
      obtain ⟨o1, o2⟩ := lab_series t1' t3'
      rw [o1]
      simp only [Lab.exact]
      cases hc : s.mag.coord with
      | static c =>
        refine ⟨ts, _, t1', rfl, by simp only [List.map_map]; exact o2, fun i e hi => ?_⟩
        rw [List.getElem?_map, List.getElem?_map] at hi
        obtain ⟨z', hz', rfl⟩ := Option.map_eq_some_iff.1 hi
        obtain ⟨z, hz, rfl⟩ := Option.map_eq_some_iff.1 hz'
        obtain ⟨_, z2⟩ := List.getElem?_zip_eq_some.1 hz
        refine ⟨z.2, c, z2, rfl, ?_⟩
        simp [List.map_map, Function.comp_def]
      | series kc =>
        rw [hc] at t4'
        have lo : ko.length = ts.length := t3'
        have lc : kc.length = ts.length := t4'
        obtain ⟨e1, e2⟩ := lab_series t1' t4'
        rw [e1]
        rw [Lab.inner_same (by rw [e2, List.map_map]; exact o2) (by rw [e2]; exact nd)]
        refine ⟨ts, _, t1', rfl, ?_, fun i e hi => ?_⟩
        · refine List.ext_getElem (by simp [lo, lc]) fun i h1 h2 => ?_
          simp
        · have hlt := (List.getElem?_eq_some_iff.1 hi).1
          simp only [List.length_zipWith, List.length_map, List.length_zip, lo, lc, min_self] at hlt
          have io : i < ko.length := by omega
          have ic : i < kc.length := by omega
          refine ⟨ko[i], kc[i], List.getElem?_eq_getElem io, List.getElem?_eq_getElem ic, ?_⟩
          rw [List.getElem?_eq_getElem (by simp [lo, lc]; omega)] at hi
          have := Option.some.inj hi
          rw [← this]
          simp [List.map_map, Function.comp_def]

namespace Csm
variable {N D : Type} [DecidableEq N]

/-- the times of data as they are requested from `get_cs` -/
theorem time_request {u : ℝ} {ref r : Option Int} {l : List (Int × List (Vec3 ℝ))} (ha : (l.map Prod.fst).Pairwise (· < ·)) :
    ∃ time t, SData.time ⟨u, .series ref l⟩ = some time ∧ time.ofTime (none.or r) = .ok t ∧
      t.vals = l.map (fun e => e.1 + (ref.or r).getD 0) ∧ t.vals.Pairwise (· < ·) ∧ t.abs = (ref.isSome || r.isSome) ∧ t.ref = r := by
  have asc : ∀ k : Int, (l.map fun e => e.1 + k).Pairwise (· < ·) := by
    intro k
    rw [List.pairwise_map] at ha ⊢
    exact ha.imp fun h => by omega
  have mono : ∀ {v : List Int}, v.Pairwise (· < ·) → Time.monotonic v = true := fun {v} h => monotonic_of_strict h
  cases ref with
  | none =>
    cases r with
    | none => exact ⟨_, ⟨false, l.map (fun e => e.1 + 0), none⟩, rfl, by simpa [Time.ofTime, Time.make] using mono (asc 0), rfl, asc 0, rfl, rfl⟩
    | some r =>
      refine ⟨_, ⟨true, l.map (fun e => e.1 + r), some r⟩, rfl, ?_, rfl, asc r, rfl, rfl⟩
      simp [Time.ofTime, Time.make, List.map_map, Function.comp_def, mono (asc r)]
  | some q =>
    cases r with
    | none => exact ⟨_, ⟨true, l.map (fun e => e.1 + q), none⟩, rfl, by simp [Time.ofTime, Time.make, mono (asc q)], rfl, asc q, rfl, rfl⟩
    | some r => exact ⟨_, ⟨true, l.map (fun e => e.1 + q), some r⟩, rfl, by simp [Time.ofTime, Time.make, mono (asc q)], rfl, asc q, rfl, rfl⟩

/-- what `get_cs` answers for the times of data -/
theorem getFor_spec {S : Slerp} (hS : SlerpOk S) {m : Csm N UEdge D} (I : Inv m) {a b : N} (ha : a ∈ m.names) (hb : b ∈ m.names)
    {u : ℝ} {ref : Option Int} {l : List (Int × List (Vec3 ℝ))} (hl : (l.map Prod.fst).Pairwise (· < ·)) (hne : l ≠ [])
    (hr : ref = none ∨ m.refTime.isSome = true) (hu : ∀ a b e, m.Supplied a b e → Sound m.refTime m.refTime.isSome e) :
    ∃ s p, m.getFor S ⟨u, .series ref l⟩ a b = .ok s ∧ s.mm.WF ∧ SimplePath m.Adj a b p ∧
      (s.mag.dependent = true → s.mag.ref = m.refTime ∧ s.mag.times = some (l.map fun e => moment m ref e.1 - m.refTime.getD 0)) ∧
      ∀ e ∈ l, ∃ f, (∀ g, s.mm.At S (moment m ref e.1) g ↔ g = f) ∧ (∃ F, Direct S m (moment m ref e.1) p F) ∧
        ∀ F, Direct S m (moment m ref e.1) p F → ∀ q, f.toParent q = F q := by
  obtain ⟨time, t, h1, h2, h3, h4, h5, h6⟩ := time_request (u := u) (ref := ref) (r := m.refTime) hl
  have hne' : t.vals ≠ [] := by rw [h3]; simpa using hne
  have habs : t.abs = m.refTime.isSome := by
    rw [h5]
    rcases hr with rfl | h
    · rfl
    · rw [h]; simp
  have hu' : ∀ a b e, m.Supplied a b e → Sound m.refTime t.abs e := by rw [habs]; exact hu
  obtain ⟨s, p, k1, k2, k3, k4, k5⟩ := path_answer hS I ha hb h2 h4 hne' hu'
  refine ⟨s, p, by unfold getFor; rw [h1]; exact k1, k2, k4, fun hd => ?_, fun e he => k5 _ (by rw [h3]; exact List.mem_map.2 ⟨e, he, rfl⟩)⟩
  have hsr : s.mag.ref = m.refTime := by
    have := getAt_ref hS I ha hb h2 h4 hne' (by
      show m.refTime.isSome = true ∨ _
      rw [habs]
      cases m.refTime <;> simp) hu' k1 hd
    unfold Time.referenceTime at this
    rw [habs, h6] at this
    cases hm : m.refTime with
    | none => rw [hm] at this; simpa using (Except.ok.inj this).symm
    | some r => rw [hm] at this; simpa using (Except.ok.inj this).symm
  refine ⟨hsr, ?_⟩
  obtain ⟨ts, q1, _⟩ := k2.series (by rw [UTLcs.mm, TLcs.scale_dependent]; exact hd)
  have q1' : s.mag.times = some ts := q1
  have := k3 hd
  rw [TLcs.clock_of_times q1', h3, hsr] at this
  rw [q1']
  congr 1
  have := congrArg (List.map (· - m.refTime.getD 0)) this
  simpa [List.map_map, Function.comp_def, moment] using this

/-! ### theorems -/

/-- **C105.** `transform_data` of data with times: if the data have no reference time of their own or the one of the manager, the result has
the same times, and the points at each of them are mapped by the composition of the systems on the path at this point in time. -/
theorem C105_timed_partial {S : Slerp} (hS : SlerpOk S) {m : Csm N UEdge D} (h : Reachable m) {a b : N} (ha : a ∈ m.names) (hb : b ∈ m.names)
    {u : ℝ} (hu0 : 0 < u) {ref : Option Int} {l : List (Int × List (Vec3 ℝ))} (hl : (l.map Prod.fst).Pairwise (· < ·)) (hne : l ≠ [])
    (hr : ref = none ∨ ref = m.refTime) (hu : ∀ a b e, m.Supplied a b e → Sound m.refTime m.refTime.isSome e) :
    ∃ ref' l' p, m.transformTimed S ⟨u, .series ref l⟩ a b = .ok ⟨u, .series ref' l'⟩ ∧ (ref' = ref ∨ ref' = m.refTime) ∧
      SimplePath m.Adj a b p ∧ List.Forall₂ (fun (e e' : Int × List (Vec3 ℝ)) => e'.1 = e.1 ∧ (∃ F, Direct S m (moment m ref e.1) p F) ∧
        ∀ F, Direct S m (moment m ref e.1) p F → inMm u e'.2 = (inMm u e.2).map F) l l' := by
  have hr' : ref = none ∨ m.refTime.isSome = true := by
    rcases hr with h | h
    · exact .inl h
    · cases hm : m.refTime with
      | none => exact .inl (h.trans hm)
      | some r => exact .inr rfl
  have hmom : ∀ x, moment m ref x - m.refTime.getD 0 = x := by
    intro x
    unfold moment
    rcases hr with rfl | rfl
    · simp
    · cases m.refTime <;> simp
  obtain ⟨s, p, h1, h2, h3, h4, h5⟩ := getFor_spec hS h.inv ha hb (u := u) hl hne hr' hu
  simp only [hmom] at h4
  obtain ⟨ref', l', k1, k2, k3, k4⟩ := apply_spec h2 u ref (l := l) (hl.imp fun h => by omega) fun hd => (h4 hd).2
  refine ⟨ref', l', p, by simp only [transformTimed, h1, k1], k2.imp id fun h => h.2.trans (h4 h.1).1, h3, ?_⟩
  rw [List.forall₂_iff_get]
  refine ⟨k3.symm, fun i hi hi' => ?_⟩
  obtain ⟨R, c, c1, c2, c3⟩ := k4 i _ (List.getElem?_eq_getElem hi)
  rw [List.getElem?_eq_getElem hi'] at c3
  have c3' := Option.some.inj c3
  obtain ⟨f, f1, f2, f3⟩ := h5 _ (List.getElem_mem hi)
  simp only [List.get_eq_getElem]
  rw [c3']
  refine ⟨rfl, f2, fun F hF => ?_⟩
  rw [entries_value hS (fun _ => h2) (i := i) (x := moment m ref l[i].1) (fun hd => ?_) ((f1 f).2 rfl) c1 c2 hu0]
  · exact List.map_congr_left fun q _ => f3 F hF q
  · rw [TLcs.clock_of_times (h4 hd).2, (h4 hd).1]
    simp only [List.getElem?_map, List.getElem?_eq_getElem hi, Option.map_some, Option.some.injEq]
    have := hmom l[i].1
    omega

/-- **C105.** There and back: at times at which both directions of all links are inverse to each other (C23) the points come back, and
always with the same times. -/
theorem C105_back_partial {S : Slerp} (hS : SlerpOk S) {m : Csm N UEdge D} (h : Reachable m) {a b : N} (ha : a ∈ m.names) (hb : b ∈ m.names)
    {u : ℝ} (hu0 : 0 < u) {ref : Option Int} {l : List (Int × List (Vec3 ℝ))} (hl : (l.map Prod.fst).Pairwise (· < ·)) (hne : l ≠ [])
    (hr : ref = none ∨ ref = m.refTime) (hu : ∀ a b e, m.Supplied a b e → Sound m.refTime m.refTime.isSome e)
    (hx : ∀ p ∈ l, ∀ a b e, m.Supplied a b e → e.mm.ExactCsm m.refTime (moment m ref p.1)) :
    ∃ d ref', m.transformTimed S ⟨u, .series ref l⟩ a b = .ok d ∧ m.transformTimed S d b a = .ok ⟨u, .series ref' l⟩ ∧
      (ref' = ref ∨ ref' = m.refTime) := by
  obtain ⟨r₁, l₁, p₁, h1, h2, h3, h4⟩ := C105_timed_partial hS h ha hb hu0 hl hne hr hu
  have lab : l₁.map Prod.fst = l.map Prod.fst := by
    clear h1 hl hne hx
    induction h4 with
    | nil => rfl
    | cons h _ ih => rw [List.map_cons, List.map_cons, h.1, ih]
  have hr₁ : r₁ = none ∨ r₁ = m.refTime := by
    rcases h2 with rfl | h2
    · exact hr
    · exact .inr h2
  have hmom : ∀ x, moment m r₁ x = moment m ref x := by
    intro x
    unfold moment
    rcases hr₁ with rfl | rfl <;> rcases hr with rfl | rfl <;> cases m.refTime <;> simp
  obtain ⟨r₂, l₂, p₂, k1, k2, k3, k4⟩ := C105_timed_partial hS h hb ha hu0 (ref := r₁) (l := l₁) (by rw [lab]; exact hl) (by
    intro e
    rw [e] at lab
    exact hne (List.map_eq_nil_iff.1 lab.symm)) hr₁ hu
  have back : l₂ = l := by
    have len1 := h4.length_eq
    have len2 := k4.length_eq
    refine List.ext_getElem (by omega) fun i i2 i0 => ?_
    have e1 := (List.forall₂_iff_get.1 h4).2 i i0 (by omega)
    have e2 := (List.forall₂_iff_get.1 k4).2 i (by omega) i2
    simp only [List.get_eq_getElem] at e1 e2
    obtain ⟨a1, ⟨F, a2⟩, a3⟩ := e1
    obtain ⟨b1, ⟨G, b2⟩, b3⟩ := e2
    rw [a1, hmom] at b2
    have b3' := b3 G (by rw [a1, hmom]; exact b2)
    have hex := hx _ (List.getElem_mem i0)
    have cF := direct_chain hS hu hex h3.1 a2
    have cG := direct_chain hS hu hex k3.1 b2
    have id' := chain_unique hS hu hex h ha ha (cF.append cG) (.here a)
    refine Prod.ext (b1.trans a1) ?_
    rw [a3 F a2, List.map_map] at b3'
    have : G ∘ F = id := id'
    rw [this, List.map_id] at b3'
    unfold inMm at b3'
    refine List.map_injective_iff.2 (fun p q hpq => ?_) b3'
    exact smul_right_injective _ hu0.ne' hpq
  subst back
  refine ⟨_, r₂, h1, k1, ?_⟩
  rcases k2 with rfl | k2
  · exact h2
  · exact .inr k2

/-- the last step of `transform_data` if the answer of `get_cs` counts from another reference time than the data -/
theorem shifted {S : Slerp} (hS : SlerpOk S) {m : Csm N UEdge D} {a b : N} {u : ℝ} (hu0 : 0 < u) {q r : Int} (hqr : q ≠ r)
    {l : List (Int × List (Vec3 ℝ))} (hl : (l.map Prod.fst).Pairwise (· < ·)) (hne : l ≠ []) {s : UTLcs} {p : List N}
    (h1 : m.getFor S ⟨u, .series (some q) l⟩ a b = .ok s) (h2 : s.mm.WF)
    (h4 : s.mag.dependent = true → s.mag.ref = some r ∧ s.mag.times = some (l.map fun e => e.1 + q - r))
    (h5 : ∀ e ∈ l, ∃ f, (∀ g, s.mm.At S (e.1 + q) g ↔ g = f) ∧ (∃ F, Direct S m (e.1 + q) p F) ∧
      ∀ F, Direct S m (e.1 + q) p F → ∀ q, f.toParent q = F q) :
      (s.mag.orient.isSeries = true → m.transformTimed S ⟨u, .series (some q) l⟩ a b = .error (.inr .valueError)) ∧
      (s.mag.orient.isSeries = false → s.mag.coord.isSeries = true → ∃ l', m.transformTimed S ⟨u, .series (some q) l⟩ a b =
        .ok ⟨u, .series (some q) l'⟩ ∧ l'.map Prod.fst = (l.map Prod.fst).filter (fun x => decide (x + r - q ∈ l.map Prod.fst)) ∧
        ∀ e' ∈ l', ∃ e ∈ l, e'.1 = e.1 ∧ (∃ F, Direct S m (e.1 + r) p F) ∧ ∀ F, Direct S m (e.1 + r) p F → inMm u e'.2 = (inMm u e.2).map F) ∧
      (s.mag.dependent = false → ∃ l', m.transformTimed S ⟨u, .series (some q) l⟩ a b = .ok ⟨u, .series (some q) l'⟩ ∧
        List.Forall₂ (fun (e e' : Int × List (Vec3 ℝ)) => e'.1 = e.1 ∧ (∃ F, Direct S m (e.1 + q) p F) ∧
          ∀ F, Direct S m (e.1 + q) p F → inMm u e'.2 = (inMm u e.2).map F) l l') := by
  refine ⟨fun ho => ?_, fun ho hc => ?_, fun hd => ?_⟩
  · have hd : s.mag.dependent = true := by simp [TLcs.dependent, ho]
    obtain ⟨ts, t1, _, _, t3, _⟩ := h2.series (by rw [UTLcs.mm, TLcs.scale_dependent]; exact hd)
    have t1' : s.mag.times = some ts := t1
    cases hor : s.mag.orient with
    | static R => rw [hor] at ho; cases ho
    | series ko =>
      have t3' : CompLen ts.length (.series ko) := by rw [← hor]; exact t3
      obtain ⟨o1, o2⟩ := lab_series t1' t3'
      have hts := (h4 hd).2
      rw [t1'] at hts
      have hdiff : ¬ (ts.zip ko).map Prod.fst = l.map Prod.fst := by
        rw [o2, Option.some.inj hts]
        intro e
        cases l with
        | nil => exact hne rfl
        | cons x l =>
          have := (List.cons.inj e).1
          dsimp only at this
          omega
      simp only [transformTimed, h1, UTLcs.apply, hor, o1, Lab.exact]
      rw [if_neg hdiff]
  · have hd : s.mag.dependent = true := by simp [TLcs.dependent, hc]
    obtain ⟨ts, t1, _, ta, _, t4⟩ := h2.series (by rw [UTLcs.mm, TLcs.scale_dependent]; exact hd)
    have t1' : s.mag.times = some ts := t1
    have hts := (h4 hd).2
    rw [t1'] at hts
    have hts' := Option.some.inj hts
    cases hor : s.mag.orient with
    | series ko => rw [hor] at ho; cases ho
    | static R =>
      cases hco : s.mag.coord with
      | static c => rw [hco] at hc; cases hc
      | series kc =>
        have lc : kc.length = ts.length := by
          have : CompLen ts.length (s.mag.coord.map (s.unit • ·)) := t4
          rw [hco] at this
          simpa [Comp.map, CompLen] using this
        obtain ⟨o1, o2⟩ := lab_series (l := kc) t1' lc
        have nd : ((ts.zip kc).map Prod.fst).Nodup := by rw [o2]; exact ta.imp fun h => by omega
        have some_iff : ∀ x, (Dict.get? (ts.zip kc) x).isSome = decide (x + r - q ∈ l.map Prod.fst) := by
          intro x
          rw [Bool.eq_iff_iff, decide_eq_true_eq]
          have mem : x ∈ ts ↔ x + r - q ∈ l.map Prod.fst := by
            rw [hts', List.mem_map, List.mem_map]
            constructor
            · rintro ⟨e, he, rfl⟩; exact ⟨e, he, by omega⟩
            · rintro ⟨e, he, h⟩; exact ⟨e, he, by omega⟩
          rw [← mem]
          constructor
          · intro hs
            obtain ⟨v, hv⟩ := Option.isSome_iff_exists.1 hs
            have : x ∈ (ts.zip kc).map Prod.fst := List.mem_map.2 ⟨_, Dict.mem_of_get? hv, rfl⟩
            rwa [o2] at this
          · intro hs
            rw [← o2] at hs
            obtain ⟨e, he, rfl⟩ := List.mem_map.1 hs
            rw [Dict.get?_of_mem nd he]; rfl
        refine ⟨(l.map fun e => (e.1, e.2.map fun p => R *ᵥ p)).filterMap fun e => (Dict.get? (ts.zip kc) e.1).map fun b =>
          (e.1, e.2.map fun p => p + (s.unit / u) • b), ?_, ?_, ?_⟩
        · simp only [transformTimed, h1, UTLcs.apply, hor, hco, o1]
          rfl
        · clear hts hts' h4 h5 hl hne h1
          have gen : ∀ k : List (Int × List (Vec3 ℝ)), ((k.map fun e => (e.1, e.2.map fun p => R *ᵥ p)).filterMap fun e =>
              (Dict.get? (ts.zip kc) e.1).map fun b => (e.1, e.2.map fun p => p + (s.unit / u) • b)).map Prod.fst =
              (k.map Prod.fst).filter (fun x => (Dict.get? (ts.zip kc) x).isSome) := by
            intro k
            induction k with
            | nil => rfl
            | cons e k ih =>
              simp only [List.map_cons, List.filterMap_cons, List.filter_cons]
              cases hg : Dict.get? (ts.zip kc) e.1 with
              | none => simpa using ih
              | some b => simpa using ih
          rw [gen]
          exact List.filter_congr fun x _ => some_iff x
        · intro e' he'
          obtain ⟨e0, he0, h0⟩ := List.mem_filterMap.1 he'
          obtain ⟨e, he, rfl⟩ := List.mem_map.1 he0
          obtain ⟨c, hc', rfl⟩ := Option.map_eq_some_iff.1 h0
          simp only at hc'
          have hmem := Dict.mem_of_get? hc'
          obtain ⟨i, hi⟩ := List.getElem?_of_mem hmem
          obtain ⟨i1, i2⟩ := List.getElem?_zip_eq_some.1 hi
          simp only at i1 i2
          have hx : e.1 ∈ ts := List.mem_of_getElem? i1
          rw [hts', List.mem_map] at hx
          obtain ⟨d, hd', hde⟩ := hx
          obtain ⟨f, f1, f2, f3⟩ := h5 d hd'
          have hme : d.1 + q = e.1 + r := by omega
          rw [hme] at f1 f2 f3
          refine ⟨e, he, rfl, f2, fun F hF => ?_⟩
          have := entries_value hS (fun _ => h2) (i := i) (x := e.1 + r) (fun hd => by
            rw [TLcs.clock_of_times t1', (h4 hd).1]
            simp [i1]) ((f1 f).2 rfl) (R := R) (c := c) (by rw [hor]; rfl) (by rw [hco]; exact i2) hu0 e.2
          rw [List.map_map]
          refine Eq.trans this ?_
          exact List.map_congr_left fun q _ => f3 F hF q
  · obtain ⟨ref', l', k1, k2, k3, k4⟩ := apply_spec h2 u (some q) (l := l) (hl.imp fun h => by omega) fun h => by rw [hd] at h; cases h
    have : ref' = some q := k2.resolve_right fun h => by rw [hd] at h; cases h.1
    subst this
    refine ⟨l', by simp only [transformTimed, h1, k1], ?_⟩
    rw [List.forall₂_iff_get]
    refine ⟨k3.symm, fun i hi hi' => ?_⟩
    obtain ⟨R, c, c1, c2, c3⟩ := k4 i _ (List.getElem?_eq_getElem hi)
    rw [List.getElem?_eq_getElem hi'] at c3
    have c3' := Option.some.inj c3
    obtain ⟨f, f1, f2, f3⟩ := h5 _ (List.getElem_mem hi)
    simp only [List.get_eq_getElem]
    rw [c3']
    refine ⟨rfl, f2, fun F hF => ?_⟩
    rw [entries_value hS (fun _ => h2) (i := i) (x := l[i].1 + q) (fun h => by rw [hd] at h; cases h) ((f1 f).2 rfl) c1 c2 hu0]
    exact List.map_congr_left fun q _ => f3 F hF q

/-- **C105.** If data and manager have different reference times, the time deltas are compared nevertheless. Where the orientation depends
on time this is an error. Where only the origin does, the result keeps those time deltas that happen to be time deltas of the answer
of `get_cs` as well, and the points of these are mapped with the systems at another point in time: the one that is obtained with the
reference time of the manager. Where nothing depends on time the reference times do not matter. -/
theorem C105_other_reference {S : Slerp} (hS : SlerpOk S) {m : Csm N UEdge D} (h : Reachable m) {a b : N} (ha : a ∈ m.names)
    (hb : b ∈ m.names) {u : ℝ} (hu0 : 0 < u) {q r : Int} (hm : m.refTime = some r) (hqr : q ≠ r) {l : List (Int × List (Vec3 ℝ))}
    (hl : (l.map Prod.fst).Pairwise (· < ·)) (hne : l ≠ []) (hu : ∀ a b e, m.Supplied a b e → Sound m.refTime m.refTime.isSome e) :
    ∃ s p, m.getFor S ⟨u, .series (some q) l⟩ a b = .ok s ∧ SimplePath m.Adj a b p ∧
      (s.mag.orient.isSeries = true → m.transformTimed S ⟨u, .series (some q) l⟩ a b = .error (.inr .valueError)) ∧
      (s.mag.orient.isSeries = false → s.mag.coord.isSeries = true → ∃ l', m.transformTimed S ⟨u, .series (some q) l⟩ a b =
        .ok ⟨u, .series (some q) l'⟩ ∧ l'.map Prod.fst = (l.map Prod.fst).filter (fun x => decide (x + r - q ∈ l.map Prod.fst)) ∧
        ∀ e' ∈ l', ∃ e ∈ l, e'.1 = e.1 ∧ (∃ F, Direct S m (e.1 + r) p F) ∧ ∀ F, Direct S m (e.1 + r) p F → inMm u e'.2 = (inMm u e.2).map F) ∧
      (s.mag.dependent = false → ∃ l', m.transformTimed S ⟨u, .series (some q) l⟩ a b = .ok ⟨u, .series (some q) l'⟩ ∧
        List.Forall₂ (fun (e e' : Int × List (Vec3 ℝ)) => e'.1 = e.1 ∧ (∃ F, Direct S m (e.1 + q) p F) ∧
          ∀ F, Direct S m (e.1 + q) p F → inMm u e'.2 = (inMm u e.2).map F) l l') := by
  obtain ⟨s, p, h1, h2, h3, h4, h5⟩ := getFor_spec hS h.inv ha hb (u := u) (ref := some q) hl hne (.inr (by rw [hm]; rfl)) hu
  have hmom : ∀ x, moment m (some q) x = x + q := fun x => rfl
  simp only [hmom, hm, Option.getD_some] at h4 h5
  exact ⟨s, p, h1, h3, shifted hS hu0 hqr hl hne h1 h2 h4 h5⟩

/-- **C105.** Data without times: the result has the times of the systems on the path, or none, and at each of them the points are mapped by
the composition of these systems. If no system of the path has times, none of them may be given by an expression. -/
theorem C105_static_partial {S : Slerp} (hS : SlerpOk S) {m : Csm N UEdge D} (h : Reachable m) {a b : N} (ha : a ∈ m.names) (hb : b ∈ m.names)
    {abs : Bool} (hu : ∀ a b e, m.Supplied a b e → Sound m.refTime abs e) (hans : ∀ p, SimplePath m.Adj a b p → m.Answerable p)
    {u : ℝ} (hu0 : 0 < u) (pts : List (Vec3 ℝ)) : ∃ r p, m.transformTimed S ⟨u, .static pts⟩ a b = .ok ⟨u, r⟩ ∧ SimplePath m.Adj a b p ∧
      ((∃ pts', r = .static pts' ∧ ∀ x, m.OnPath p x ∨ m.StillPath p → (∃ F, Direct S m x p F) ∧
          ∀ F, Direct S m x p F → inMm u pts' = (inMm u pts).map F) ∨
        ∃ ref l, r = .series ref l ∧ (l.map Prod.fst).Pairwise (· < ·) ∧ (∀ x, m.OnPath p x ↔ ∃ e ∈ l, x = e.1 + ref.getD 0) ∧
          ∀ e ∈ l, (∃ F, Direct S m (e.1 + ref.getD 0) p F) ∧ ∀ F, Direct S m (e.1 + ref.getD 0) p F → inMm u e.2 = (inMm u pts).map F) := by
  obtain ⟨s, p, h1, h2, h3, h4⟩ := always_answer hS h.inv ha hb hu hans
  obtain ⟨k1, k2⟩ := apply_static s (fun hd => (h3 hd).1) u pts
  cases hd : s.mag.dependent with
  | false =>
    obtain ⟨R, c, c1, c2, c3⟩ := k1 hd
    refine ⟨.static (pts.map fun p => R *ᵥ p + (s.unit / u) • c), p, by simp only [transformTimed, getFor, SData.time, h1, c3], h2, .inl ⟨_, rfl, fun x hx => ?_⟩⟩
    obtain ⟨f, f1, f2, f3⟩ := h4 x hx
    refine ⟨f2, fun F hF => ?_⟩
    rw [entries_value hS (fun h => (h3 h).1) (i := 0) (x := x) (fun h => by rw [hd] at h; cases h) ((f1 f).2 rfl) c1 c2 hu0]
    exact List.map_congr_left fun q _ => f3 F hF q
  | true =>
    obtain ⟨ts, l, t1, t2, t3, t4⟩ := k2 hd
    obtain ⟨w1, w2, w3⟩ := h3 hd
    rw [TLcs.clock_of_times t1] at w2 w3
    have hon : ∀ x, m.OnPath p x ↔ ∃ e ∈ l, x = e.1 + s.mag.ref.getD 0 := by
      intro x
      rw [← w3, ← t3, List.map_map, List.mem_map]
      exact ⟨fun ⟨e, he, h⟩ => ⟨e, he, h.symm⟩, fun ⟨e, he, h⟩ => ⟨e, he, h.symm⟩⟩
    refine ⟨_, p, by simp only [transformTimed, getFor, SData.time, h1, t2], h2, .inr ⟨_, l, rfl, ?_, hon, fun e he => ?_⟩⟩
    · rw [t3]
      rw [List.pairwise_map] at w2
      exact w2.imp fun h => by omega
    · obtain ⟨i, hi⟩ := List.getElem?_of_mem he
      obtain ⟨R, c, c1, c2, c3⟩ := t4 i e hi
      obtain ⟨f, f1, f2, f3⟩ := h4 (e.1 + s.mag.ref.getD 0) (.inl ((hon _).2 ⟨e, he, rfl⟩))
      refine ⟨f2, fun F hF => ?_⟩
      rw [c3, entries_value hS (fun h => (h3 h).1) (i := i) (x := e.1 + s.mag.ref.getD 0) (fun _ => ?_) ((f1 f).2 rfl) c1 c2 hu0]
      · exact List.map_congr_left fun q _ => f3 F hF q
      · rw [TLcs.clock_of_times t1, ← t3]
        simp [hi]

/-- **C105.** `get_data` gives data in their own system unchanged, and the result of `transform_data` in any other. -/
theorem C105_get_data (S : Slerp) {m : Csm N UEdge SData} {n : N} :
    (∀ x, m.findData n = .error x → ∀ t, m.getTimed S n t = .error (.inl x)) ∧ ∀ cs d, m.findData n = .ok (cs, d) →
      m.getTimed S n none = .ok d ∧ m.getTimed S n (some cs) = .ok d ∧ ∀ t, t ≠ cs → m.getTimed S n (some t) = m.transformTimed S d cs t := by
  refine ⟨fun x hx t => by simp only [getTimed, hx], fun cs d hd => ⟨by simp only [getTimed, hd], by simp [getTimed, hd], fun t ht => ?_⟩⟩
  simp only [getTimed, hd, if_neg ht]

/-! ### examples -/

namespace TimedDemo
open ManagerDemo

/-- a table that moves by a millimetre in each unit of time, described by an expression with a reference time -/
noncomputable def table : UEdge := ⟨1, .expression ⟨none, some 0, .static 1, fun t => ![0, t, 0]⟩ false⟩

theorem table_sound : Sound (some 0) true table where
  wf := ⟨(fun h => by cases h), (fun _ => rfl), Rotation.one⟩
  unit := by norm_num [table]
  kind _ _ := rfl

/-- the table (1) in the hall (0), in a manager with a reference time -/
noncomputable def hall : Csm ℕ UEdge Unit := (addCs 1 0 table true true (init 0 100 (some 0))).state

theorem hall_edges : hall.edges = [((1, 0), ⟨true, some table⟩), ((0, 1), ⟨false, reverseOf table⟩)] := rfl

theorem hall_supplied {a b : ℕ} {e : UEdge} (h : hall.Supplied a b e) : a = 1 ∧ b = 0 ∧ e = table := by
  unfold Supplied at h
  rw [hall_edges] at h
  simp only [List.mem_cons, Prod.mk.injEq, Edge.mk.injEq, List.not_mem_nil, or_false, Option.some.injEq] at h
  rcases h with h | h
  · exact ⟨h.1.1, h.1.2, h.2.2⟩
  · cases h.2.1

theorem hall_sound (a b : ℕ) (e : UEdge) (h : hall.Supplied a b e) : Sound hall.refTime hall.refTime.isSome e := by
  rw [(hall_supplied h).2.2]; exact table_sound

/-- the hypotheses of `C105_timed_partial` and `C105_back_partial` (for `ref = none` and `ref = some 0`) and of `C105_other_reference` (for
`q ≠ 0`): data that move themselves -/
example : Reachable hall ∧ 0 ∈ hall.names ∧ 1 ∈ hall.names ∧ (([(0, [![1, 0, 0]]), (10, [![2, 0, 0]])] : List (Int × List (Vec3 ℝ))).map Prod.fst).Pairwise (· < ·) ∧
    hall.refTime = some 0 ∧ (∀ a b e, hall.Supplied a b e → Sound hall.refTime hall.refTime.isSome e) ∧
    ∀ x a b e, hall.Supplied a b e → e.mm.ExactCsm hall.refTime x := by
  refine ⟨.addCs _ _ _ _ _ (.init _ _ _), ?_, ?_, by simp, rfl, hall_sound, fun x a b e h => ?_⟩
  · show 0 ∈ [0, 1]; simp
  · show 1 ∈ [0, 1]; simp
  · rw [(hall_supplied h).2.2]; trivial

/-- a manager with discrete systems: the robot of C102 (1) in the hall (0) -/
noncomputable def shop : Csm ℕ UEdge Unit := (addCs 1 0 robot true true (init 0 100 none)).state

/-- the hypotheses of `C105_static_partial` -/
example : Reachable shop ∧ 0 ∈ shop.names ∧ 1 ∈ shop.names ∧ (∀ a b e, shop.Supplied a b e → Sound shop.refTime false e) ∧
    ∀ p, SimplePath shop.Adj 0 1 p → shop.Answerable p := by
  have key : ∀ a b e, shop.Supplied a b e → e = robot := fun a b e h => by
    have he : shop.edges = [((1, 0), ⟨true, some robot⟩), ((0, 1), ⟨false, reverseOf robot⟩)] := rfl
    unfold Supplied at h
    rw [he] at h
    simp only [List.mem_cons, Prod.mk.injEq, Edge.mk.injEq, List.not_mem_nil, or_false, Option.some.injEq] at h
    rcases h with h | h
    · exact h.2.2
    · cases h.2.1
  refine ⟨.addCs _ _ _ _ _ (.init _ _ _), ?_, ?_, fun a b e h => key _ _ _ h ▸ robot_sound, fun p _ => .inr fun a b e _ h => ?_⟩
  · show 0 ∈ [0, 1]; simp
  · show 1 ∈ [0, 1]; simp
  · rcases h with h | h
    · exact key _ _ _ h ▸ ⟨_, rfl⟩
    · exact key _ _ _ h ▸ ⟨_, rfl⟩

/-- the hypotheses of `C105_get_data`: data in the hall -/
example (d : SData) : ({ (init 0 100 none : Csm ℕ UEdge SData) with nodes := [(0, [(7, d)])] }).findData 7 = .ok (0, d) := by
  simp [findData, Dict.get?]

end TimedDemo

open TimedDemo in
/-- **C105 fails** for data with another reference time than the manager: the table is asked for at the points in time 10 and 20. Of the
result one of both times is missing, without an error, and the origin of the data at the time 20 is put where the table was at the
time 10. -/
theorem C105_counterexample (S : Slerp) : ∃ (m : Csm ℕ UEdge Unit), Reachable m ∧ 0 ∈ m.names ∧ 1 ∈ m.names ∧
    (∀ a b e, m.Supplied a b e → Sound m.refTime m.refTime.isSome e) ∧ m.refTime = some 0 ∧
    m.transformTimed S ⟨1, .series (some 10) [(0, [0]), (10, [0])]⟩ 1 0 = .ok ⟨1, .series (some 10) [(10, [![0, 10, 0]])]⟩ ∧
    moment m (some 10) 10 = 20 ∧ (∃ F, Direct S m 20 [1, 0] F) ∧ ∀ F, Direct S m 20 [1, 0] F → F 0 = ![0, 20, 0] := by
  have hr : Reachable hall := .addCs _ _ _ _ _ (.init _ _ _)
  have h0 : 0 ∈ hall.names := by show 0 ∈ [0, 1]; simp
  have h1 : 1 ∈ hall.names := by show 1 ∈ [0, 1]; simp
  have hsup : hall.Supplied 1 0 table := by unfold Supplied; rw [hall_edges]; simp
  have hadj : hall.Adj 1 0 := (adj_iff_supplied hr.inv).2 ⟨_, .inl hsup⟩
  have p10 : SimplePath hall.Adj 1 0 [1, 0] := ⟨.cons hadj (.nil 0), by simp⟩
  have hlink : hall.linksOn [1, 0] = some [table] := by
    have : hall.linkOn 1 0 = some table := by
      unfold linkOn edge?
      rw [Dict.get?_of_mem hr.inv.edgesNodup hsup]
    simp only [linksOn, this]
  have hget : hall.getFor S ⟨1, .series (some 10) [(0, [0]), (10, [0])]⟩ 1 0 =
      .ok ⟨1, some [10, 20], some 0, .static 1, .series [![0, 10, 0], ![0, 20, 0]]⟩ := by
    unfold getFor SData.time
    simp only
    unfold getAt
    rw [if_neg (by simp [Csm.has, h0, h1]), if_neg (by simp), (shortestPath_iff hr.inv h1 h0).2 p10]
    simp only [hlink]
    have hrt : hall.refTime = some 0 := rfl
    rw [hrt]
    simp [getCsU, UEdge.onEdge, table, TEdge.onEdge, TEdge.onEdge.interpolated, TEdge.ref, TEdge.interp, ELcs.interpTime, ELcs.interpOrient,
      ELcs.interpCoord, ELcs.frame, TLcs.time, Time.ofTime, Time.make, Time.monotonic, Time.asTimedelta, Time.referenceTime, TEdge.turn,
      Comp.isSeries, bind, Except.bind, Except.map]
  have at20 : ∀ f, table.mm.AtCsm S hall.refTime 20 f ↔ f = ⟨1, ![0, 20, 0]⟩ := by
    intro f
    show (∃ g : Lcs ℝ, CompAt S _ (.static 1) 20 g.orientation ∧ g.coordinates = (1 : ℝ) • ![0, ((20 - 0 : Int) : ℝ), 0] ∧ f = if false then g.invert else g) ↔ _
    constructor
    · rintro ⟨g, g1, g2, hf⟩
      have hf' : f = g := hf
      rw [hf']
      refine Lcs.ext ?_ ?_
      · generalize g.orientation = R at g1
        cases g1
        rfl
      · simp [g2]
    · rintro rfl
      exact ⟨_, .static, by simp, rfl⟩
  refine ⟨hall, hr, h0, h1, hall_sound, rfl, ?_, rfl, ⟨_, .forth hsup ((at20 _).2 rfl) (.here 0)⟩, fun F hF => ?_⟩
  · simp only [transformTimed, hget, UTLcs.apply, TLcs.lab, Lab.exact, Lab.inner]
    simp [Dict.get?]
  · cases hF with
    | forth k1 k2 k3 =>
      cases (hall_supplied k1).2.2
      cases k3
      rw [(at20 _).1 k2]
      funext i
      fin_cases i <;> simp [Lcs.toParent_eq]
    | back k1 k2 k3 => exact absurd (hall_supplied k1).1 (by decide)

end Csm
end Weldx
