import Verif.TimeLcs.TimedData

/-!
# Data with a reference time in a manager without one (C105)

Source: `/repo/weldx/transformations/cs_manager.py` 1024-1061 (`_get_cs_on_edge` with `use_lcs_time_ref`), 1206-1246 (`get_cs`), 1709-1757
(`transform_data`).

Simplifications: those of `Verif/TimeLcs/TimedData.lean`.
-/

set_option linter.unusedSectionVars false

namespace Weldx

open Ip Matrix Csm TLcs

theorem TEdge.interp_abs (S : Slerp) (e : TEdge) {t : Time} (hta : t.vals.Pairwise (· < ·)) (hab : t.abs = true) (r : Int) :
    e.interp S t (some r) = e.interp S ⟨true, t.vals, some r⟩ (some r) := by
  obtain ⟨a, v, q⟩ := t
  cases hab
  have h1 : Time.ofTime ⟨true, v, q⟩ (some r) = .ok ⟨true, v, some r⟩ := by
    simp [Time.ofTime, Time.make, monotonic_of_strict hta]
  have h2 : Time.ofTime ⟨true, v, some r⟩ (some r) = .ok ⟨true, v, some r⟩ := by
    simp [Time.ofTime, Time.make, monotonic_of_strict hta]
  cases e with
  | discrete c => simp only [TEdge.interp, TLcs.interpTime, h1, h2]
  | expression c i => simp only [TEdge.interp, ELcs.interpTime, h1, h2]

/-- the reference time of the answer of `get_cs` for absolute times without any reference time: the one of the system if there is a
single one, the first requested time otherwise -/
theorem getCs_ref_abs {S : Slerp} (hS : SlerpOk S) {time t : Time} (ht : time.ofTime none = .ok t) (hta : t.vals.Pairwise (· < ·))
    (hne : t.vals ≠ []) (hab : t.abs = true) {es : List TEdge} (he : ∀ e ∈ es, e.WF ∧ (e.dependent = true → e.ref.isSome = true)) {s : TLcs}
    (hs : getCs S none es time none = .ok s) (hd : s.dependent = true) :
    (∃ e, es = [e] ∧ e.dependent = true ∧ s.ref = e.ref) ∨ (2 ≤ es.length ∧ t.referenceTime = .ok s.ref) := by
  have hq : TEdge.Query none none t := ⟨hta, hne, (fun r h => by cases h), (fun h => by rw [hab] at h; cases h), (fun h => by cases h)⟩
  unfold getCs at hs
  simp only [Option.or, ht, bind, Except.bind] at hs
  match es, he with
  | [], _ => cases hs; cases hd
  | [e], he =>
    left
    simp only [Option.isNone_none] at hs
    obtain ⟨hw, hk⟩ := he e (by simp)
    have hdep : e.dependent = true := by
      by_contra hn
      cases e with
      | expression c i => exact hn rfl
      | discrete c =>
        have hn' : ¬ c.dependent = true := hn
        simp only [TEdge.onEdge, if_neg hn'] at hs
        cases hs
        exact hn' hd
    obtain ⟨r, hr⟩ := Option.isSome_iff_exists.1 (hk hdep)
    have hq' : TEdge.Query none (some r) ⟨true, t.vals, some r⟩ := ⟨hta, hne, (fun _ h => h), (fun h => by cases h), (fun h => by cases h)⟩
    have same : e.onEdge S none t none true = e.onEdge S none ⟨true, t.vals, some r⟩ (some r) false := by
      have hcase : ¬ (e.ref = none ∧ (none : Option Int).isSome = true) := fun h => by cases h.2
      have main : TEdge.onEdge.interpolated S none t none true e = TEdge.onEdge.interpolated S none ⟨true, t.vals, some r⟩ (some r) false e := by
        rw [TEdge.interpolated_eq hcase, TEdge.interpolated_eq hcase]
        simp only [if_true, Bool.false_eq_true, if_false, hr, TEdge.interp_abs S e hta hab r]
      cases e with
      | discrete c =>
        have hdep' : c.dependent = true := hdep
        show (if c.dependent then _ else _) = (if c.dependent then _ else _)
        rw [if_pos hdep', if_pos hdep']
        exact main
      | expression c i => exact main
    rw [same] at hs
    obtain ⟨k, hk1, _, hk2, _⟩ := TEdge.onEdge_spec hS hq' false hw (fun h _ => hk h)
    rw [hk1] at hs
    cases hs
    refine ⟨e, rfl, hdep, ?_⟩
    rcases (hk2 rfl).2 with h | h
    · have := h.2.2
      unfold Time.referenceTime at this
      rw [hr]
      exact (Except.ok.inj this).symm
    · rw [hd] at h; cases h.1
  | e :: e' :: es, he =>
    right
    have he' : ∀ e₁ ∈ e :: e' :: es, e₁.WF ∧ (e₁.dependent = true → (none : Option Int) = none → e₁.ref.isSome = t.abs) :=
      fun e₁ h => ⟨(he e₁ h).1, fun hd _ => by rw [hab]; exact (he e₁ h).2 hd⟩
    obtain ⟨r, hr, _, hk, hat⟩ := TEdge.onEdge_spec hS hq false (he' e (by simp)).1 (he' e (by simp)).2
    obtain ⟨s', hs', sk, sat⟩ := addEdges_spec hS hq (es := e' :: es) (fun e' h => he' e' (by simp [List.mem_cons.1 h])) (hk rfl)
    simp only [hr, hs'] at hs
    cases hs
    refine ⟨by simp, ?_⟩
    rcases sk.2 with h | h
    · exact h.2.2
    · rw [hd] at h; cases h.1

namespace Csm
variable {N D : Type} [DecidableEq N]

/-- the reference time from which the answer of `get_cs` counts -/
def Counts (m : Csm N UEdge D) (p : List N) (first r : Int) : Prop :=
  2 ≤ p.length ∧ (∀ a b, p = [a, b] → ∃ e, (m.Supplied a b e ∨ m.Supplied b a e) ∧ e.mag.ref = some r) ∧ (3 ≤ p.length → r = first)

theorem linksOn_length {m : Csm N UEdge D} : ∀ {p : List N} {es : List UEdge}, m.linksOn p = some es → es.length = p.length - 1
  | [], _, h => by cases h; rfl
  | [_], _, h => by cases h; rfl
  | a :: b :: p, es, h => by
    simp only [linksOn] at h
    cases h1 : m.linkOn a b with
    | none => rw [h1] at h; cases h
    | some e =>
      cases h2 : m.linksOn (b :: p) with
      | none => rw [h1, h2] at h; cases h
      | some k =>
        rw [h1, h2] at h
        cases h
        have := linksOn_length h2
        simp at this ⊢
        omega

theorem getFor_abs {S : Slerp} (hS : SlerpOk S) {m : Csm N UEdge D} (I : Inv m) {a b : N} (ha : a ∈ m.names) (hb : b ∈ m.names)
    {u : ℝ} {q : Int} {x : Int} {v : List (Vec3 ℝ)} {l : List (Int × List (Vec3 ℝ))} (hl : (((x, v) :: l).map Prod.fst).Pairwise (· < ·))
    (hr : m.refTime = none) (hu : ∀ a b e, m.Supplied a b e → Sound m.refTime true e) :
    ∃ s p, m.getFor S ⟨u, .series (some q) ((x, v) :: l)⟩ a b = .ok s ∧ s.mm.WF ∧ SimplePath m.Adj a b p ∧
      (s.mag.dependent = true → ∃ r, Counts m p (x + q) r ∧ s.mag.ref = some r ∧ s.mag.times = some (((x, v) :: l).map fun e => e.1 + q - r)) ∧
      ∀ e ∈ (x, v) :: l, ∃ f, (∀ g, s.mm.At S (e.1 + q) g ↔ g = f) ∧ (∃ F, Direct S m (e.1 + q) p F) ∧
        ∀ F, Direct S m (e.1 + q) p F → ∀ q, f.toParent q = F q := by
  obtain ⟨time, t, h1, h2, h3, h4, h5, h6⟩ := time_request (u := u) (ref := some q) (r := m.refTime) hl
  have h3' : t.vals = ((x, v) :: l).map fun e => e.1 + q := h3
  have hne' : t.vals ≠ [] := by rw [h3]; simp
  have habs : t.abs = true := by rw [h5]; rfl
  have hu' : ∀ a b e, m.Supplied a b e → Sound m.refTime t.abs e := by rw [habs]; exact hu
  obtain ⟨s, p, k1, k2, k3, k4, k5⟩ := path_answer hS I ha hb h2 h4 hne' hu'
  refine ⟨s, p, by unfold getFor; rw [h1]; exact k1, k2, k4, fun hd => ?_, fun e he => k5 _ (by rw [h3']; exact List.mem_map.2 ⟨e, he, rfl⟩)⟩
  -- the reference time
  have key : ∃ r, Counts m p (x + q) r ∧ s.mag.ref = some r := by
    have hh : ¬(¬ m.has a = true ∨ ¬ m.has b = true) := by simp [Csm.has, ha, hb]
    unfold getAt at k1
    rw [if_neg hh] at k1
    by_cases hab : a = b
    · rw [if_pos hab] at k1
      cases k1; cases hd
    · rw [if_neg hab, (shortestPath_iff I ha hb).2 k4] at k1
      obtain ⟨es, e1, e2, _, _⟩ := linksOn_spec (S := S) I hu' k4.1
      simp only [e1] at k1
      cases hg : getCsU S m.refTime es time none with
      | error y => rw [hg] at k1; cases k1
      | ok c =>
        rw [hg] at k1
        cases k1
        obtain ⟨g1, _⟩ := C99_get_cs S m.refTime (es := es) (fun e he => (e2 e he).unit) time none
        rw [hg, hr] at g1
        rw [hr] at h2
        have := getCs_ref_abs hS h2 h4 hne' habs (es := es.map UEdge.mm) (by
          intro e h
          obtain ⟨e, h', rfl⟩ := List.mem_map.1 h
          exact ⟨(e2 e h').wf, fun hd => by rw [(e2 e h').kind_mm hd hr, habs]⟩) g1.symm (by
            rw [UTLcs.mm, TLcs.scale_dependent]; exact hd)
        have mmref : ∀ e : UEdge, e.mm.ref = e.mag.ref := fun e => by cases e with | mk k t => cases t <;> rfl
        have revref : ∀ e : UEdge, e.reverse.mag.ref = e.mag.ref := fun e => by cases e with | mk k t => cases t <;> rfl
        have len := linksOn_length e1
        rcases this with ⟨e', he', _, hre⟩ | ⟨h2e, hre⟩
        · obtain ⟨e₀, rfl⟩ : ∃ e₀, es = [e₀] := by
            match es, he' with
            | [e₀], _ => exact ⟨e₀, rfl⟩
          simp only [List.map_cons, List.map_nil, List.cons.injEq, and_true] at he'
          subst he'
          have hre' : s.mag.ref = e₀.mag.ref := by rw [← mmref]; exact hre
          obtain ⟨r, hr0⟩ : ∃ r, e₀.mag.ref = some r := by
            have := (e2 e₀ (by simp)).kind_mm (by assumption) hr
            rw [habs, mmref] at this
            exact Option.isSome_iff_exists.1 this
          refine ⟨r, ⟨by simp at len; omega, fun a' b' hp => ?_, fun h3 => by simp at len; omega⟩, hre'.trans hr0⟩
          subst hp
          have hadj : m.Adj a' b' := by
            have := k4.1
            cases this with
            | cons h w => cases w with
              | nil => exact h
              | cons _ w => cases w
          obtain ⟨e, he⟩ := linkOn_spec I hadj
          have hl1 : m.linkOn a' b' = some e₀ := by
            simp only [linksOn] at e1
            cases hlo : m.linkOn a' b' with
            | none => rw [hlo] at e1; cases e1
            | some z => rw [hlo] at e1; simpa using e1
          rcases he with ⟨s1, s2⟩ | ⟨s1, s2⟩
          · rw [hl1] at s2
            cases s2
            exact ⟨e₀, .inl s1, hr0⟩
          · rw [hl1] at s2
            refine ⟨e, .inr s1, ?_⟩
            rw [← revref, ← Option.some.inj s2]
            exact hr0
        · have hfirst : t.referenceTime = .ok (some (x + q)) := by
            unfold Time.referenceTime
            rw [habs, h6, hr, h3']
            rfl
          rw [hfirst] at hre
          have hre' : some (x + q) = s.mag.ref := Except.ok.inj hre
          refine ⟨x + q, ⟨by simp at h2e; omega, fun a' b' hp => ?_, fun _ => rfl⟩, hre'.symm⟩
          subst hp
          simp at len h2e
          omega
  obtain ⟨r, c1, c2⟩ := key
  refine ⟨r, c1, c2, ?_⟩
  obtain ⟨ts, q1, _⟩ := k2.series (by rw [UTLcs.mm, TLcs.scale_dependent]; exact hd)
  have q1' : s.mag.times = some ts := q1
  have := k3 hd
  rw [TLcs.clock_of_times q1', h3', c2] at this
  rw [q1']
  congr 1
  have := congrArg (List.map (· - r)) this
  simpa [List.map_map, Function.comp_def] using this

/-! ### theorems -/

/-- **C105.** Data with a reference time in a manager without one: the answer of `get_cs` counts from the reference time of the system if there is
only one link, and from the first time of the data otherwise (`Counts`). If this is the reference time of the data, the result has the
same times, and the points of each time are mapped by the composition of the systems on the path at this point in time. Otherwise the
statements of `C105_other_reference` hold. -/
theorem C105_absolute {S : Slerp} (hS : SlerpOk S) {m : Csm N UEdge D} (h : Reachable m) {a b : N} (ha : a ∈ m.names) (hb : b ∈ m.names)
    {u : ℝ} (hu0 : 0 < u) {q x : Int} {v : List (Vec3 ℝ)} {l : List (Int × List (Vec3 ℝ))} (hl : (((x, v) :: l).map Prod.fst).Pairwise (· < ·))
    (hm : m.refTime = none) (hu : ∀ a b e, m.Supplied a b e → Sound m.refTime true e) :
    ∃ s p, m.getFor S ⟨u, .series (some q) ((x, v) :: l)⟩ a b = .ok s ∧ SimplePath m.Adj a b p ∧
      ((s.mag.dependent = true → s.mag.ref = some q) → ∃ l', m.transformTimed S ⟨u, .series (some q) ((x, v) :: l)⟩ a b = .ok ⟨u, .series (some q) l'⟩ ∧
        List.Forall₂ (fun (e e' : Int × List (Vec3 ℝ)) => e'.1 = e.1 ∧ (∃ F, Direct S m (e.1 + q) p F) ∧
          ∀ F, Direct S m (e.1 + q) p F → inMm u e'.2 = (inMm u e.2).map F) ((x, v) :: l) l') ∧
      (s.mag.dependent = true → ∃ r, s.mag.ref = some r ∧ Counts m p (x + q) r ∧ (r ≠ q →
        (s.mag.orient.isSeries = true → m.transformTimed S ⟨u, .series (some q) ((x, v) :: l)⟩ a b = .error (.inr .valueError)) ∧
        (s.mag.orient.isSeries = false → s.mag.coord.isSeries = true → ∃ l', m.transformTimed S ⟨u, .series (some q) ((x, v) :: l)⟩ a b =
          .ok ⟨u, .series (some q) l'⟩ ∧ l'.map Prod.fst = (((x, v) :: l).map Prod.fst).filter (fun y => decide (y + r - q ∈ ((x, v) :: l).map Prod.fst)) ∧
          ∀ e' ∈ l', ∃ e ∈ (x, v) :: l, e'.1 = e.1 ∧ (∃ F, Direct S m (e.1 + r) p F) ∧
            ∀ F, Direct S m (e.1 + r) p F → inMm u e'.2 = (inMm u e.2).map F))) := by
  obtain ⟨s, p, h1, h2, h3, h4, h5⟩ := getFor_abs hS h.inv ha hb (u := u) (q := q) hl hm hu
  refine ⟨s, p, h1, h3, fun hq => ?_, fun hd => ?_⟩
  · have times : s.mag.dependent = true → s.mag.times = some (((x, v) :: l).map Prod.fst) := by
      intro hd
      obtain ⟨r, _, r2, r3⟩ := h4 hd
      have : r = q := Option.some.inj (r2.symm.trans (hq hd))
      subst this
      rw [r3]
      congr 1
      exact List.map_congr_left fun e _ => by omega
    obtain ⟨ref', l', k1, k2, k3, k4⟩ := apply_spec h2 u (some q) (l := (x, v) :: l) (hl.imp fun h => by omega) times
    have : ref' = some q := k2.elim id fun h => h.2.trans (hq h.1)
    subst this
    refine ⟨l', by simp only [transformTimed, h1, k1], ?_⟩
    rw [List.forall₂_iff_get]
    refine ⟨k3.symm, fun i hi hi' => ?_⟩
    obtain ⟨R, c, c1, c2, c3⟩ := k4 i _ (List.getElem?_eq_getElem hi)
    rw [List.getElem?_eq_getElem hi'] at c3
    have c3' := Option.some.inj c3
    obtain ⟨f, f1, f2, f3⟩ := h5 _ (List.getElem_mem hi)
    simp only [List.get_eq_getElem]
    rw [c3']
    refine ⟨rfl, f2, fun F hF => ?_⟩
    rw [entries_value hS (fun _ => h2) (i := i) (x := ((x, v) :: l)[i].1 + q) (fun hd => ?_) ((f1 f).2 rfl) c1 c2 hu0]
    · exact List.map_congr_left fun q _ => f3 F hF q
    · rw [TLcs.clock_of_times (times hd), hq hd]
      rw [List.getElem?_map, List.getElem?_map, List.getElem?_eq_getElem hi]
      rfl
  · obtain ⟨r, r1, r2, r3⟩ := h4 hd
    refine ⟨r, r2, r1, fun hrq => ?_⟩
    obtain ⟨s1, s2, _⟩ := shifted hS hu0 (Ne.symm hrq) hl (by simp) h1 h2 (fun _ => ⟨r2, r3⟩) h5
    exact ⟨s1, s2⟩

/-- **C105.** In a manager without a reference time, data on a path of several links are transformed correctly if their reference time is their first time, and
data on a single link if it is the reference time of the system. -/
theorem C105_absolute_partial {S : Slerp} (hS : SlerpOk S) {m : Csm N UEdge D} (h : Reachable m) {a b : N} (ha : a ∈ m.names) (hb : b ∈ m.names)
    {u : ℝ} (hu0 : 0 < u) {q x : Int} {v : List (Vec3 ℝ)} {l : List (Int × List (Vec3 ℝ))} (hl : (((x, v) :: l).map Prod.fst).Pairwise (· < ·))
    (hm : m.refTime = none) (hu : ∀ a b e, m.Supplied a b e → Sound m.refTime true e)
    (hq : ∀ e, m.Supplied a b e ∨ m.Supplied b a e → e.mag.ref = some q) (hx : ¬ m.Adj a b → x = 0) :
    ∃ l' p, m.transformTimed S ⟨u, .series (some q) ((x, v) :: l)⟩ a b = .ok ⟨u, .series (some q) l'⟩ ∧ SimplePath m.Adj a b p ∧
      List.Forall₂ (fun (e e' : Int × List (Vec3 ℝ)) => e'.1 = e.1 ∧ (∃ F, Direct S m (e.1 + q) p F) ∧
        ∀ F, Direct S m (e.1 + q) p F → inMm u e'.2 = (inMm u e.2).map F) ((x, v) :: l) l' := by
  obtain ⟨s, p, _, h2, h3, h4⟩ := C105_absolute hS h ha hb hu0 (q := q) hl hm hu
  obtain ⟨l', k1, k2⟩ := h3 fun hd => by
    obtain ⟨r, r1, ⟨c0, c1, c2⟩, _⟩ := h4 hd
    rw [r1]
    match p, c0, h2, c1, c2 with
    | [a', b'], _, hp, c1, _ =>
      have hw := hp.1
      cases hw with
      | cons hadj w => cases w with
        | cons _ w => cases w
        | nil =>
          obtain ⟨e, he, her⟩ := c1 a b rfl
          rw [← her, hq e he]
    | a' :: b' :: c' :: p, _, hp, _, c2 =>
      rw [c2 (by simp)]
      by_cases hadj : m.Adj a b
      · have := h.inv.tree.path_unique _ _ _ _ hp ⟨.cons hadj (.nil b), by
          simp only [List.nodup_cons, List.mem_singleton, List.not_mem_nil, not_false_eq_true, List.nodup_nil, and_true]
          rintro rfl
          exact h.inv.tree.irrefl _ hadj⟩
        simp at this
      · rw [hx hadj, zero_add]
  exact ⟨l', p, k1, h2, k2⟩

/-! ### examples -/

namespace AbsoluteDemo
open ManagerDemo TimedDemo

theorem table_absolute : Sound none true table where
  wf := ⟨(fun h => by cases h), (fun _ => rfl), Rotation.one⟩
  unit := by norm_num [table]
  kind _ _ := rfl

/-- the table of C105 (1) in the hall (0), in a manager without a reference time -/
noncomputable def depot : Csm ℕ UEdge Unit := (addCs 1 0 table true true (init 0 100 none)).state

theorem depot_edges : depot.edges = [((1, 0), ⟨true, some table⟩), ((0, 1), ⟨false, reverseOf table⟩)] := rfl

theorem depot_supplied {a b : ℕ} {e : UEdge} (h : depot.Supplied a b e) : a = 1 ∧ b = 0 ∧ e = table := by
  unfold Supplied at h
  rw [depot_edges] at h
  simp only [List.mem_cons, Prod.mk.injEq, Edge.mk.injEq, List.not_mem_nil, or_false, Option.some.injEq] at h
  rcases h with h | h
  · exact ⟨h.1.1, h.1.2, h.2.2⟩
  · cases h.2.1

/-- the hypotheses of `C105_absolute` (for any reference time of the data) and of `C105_absolute_partial` (for the reference time `0` of the
table) -/
example : Reachable depot ∧ 0 ∈ depot.names ∧ 1 ∈ depot.names ∧ depot.refTime = none ∧
    (([(3, [![1, 0, 0]]), (10, [![2, 0, 0]])] : List (Int × List (Vec3 ℝ))).map Prod.fst).Pairwise (· < ·) ∧
    (∀ a b e, depot.Supplied a b e → Sound depot.refTime true e) ∧ (∀ e, depot.Supplied 1 0 e ∨ depot.Supplied 0 1 e → e.mag.ref = some 0) ∧
    depot.Adj 1 0 := by
  have hr : Reachable depot := .addCs _ _ _ _ _ (.init _ _ _)
  have hsup : depot.Supplied 1 0 table := by unfold Supplied; rw [depot_edges]; simp
  refine ⟨hr, ?_, ?_, rfl, by simp, fun a b e h => ?_, fun e h => ?_, (adj_iff_supplied hr.inv).2 ⟨_, .inl hsup⟩⟩
  · show 0 ∈ [0, 1]; simp
  · show 1 ∈ [0, 1]; simp
  · rw [(depot_supplied h).2.2]; exact table_absolute
  · rcases h with h | h <;> rw [(depot_supplied h).2.2] <;> rfl

/-- a rack on the table -/
noncomputable def rack : UEdge := ⟨1, .discrete ⟨none, none, .static 1, .static ![0, 0, 5]⟩⟩

theorem rack_sound : Sound none true rack where
  wf := ⟨⟨(fun h => by cases h), (fun _ => .inl rfl), (fun _ => rfl), Rotation.one⟩, fun _ => rfl⟩
  unit := by norm_num [rack]
  kind h _ := by cases h

/-- the rack (2) on the table -/
noncomputable def store : Csm ℕ UEdge Unit := (addCs 2 1 rack true true depot).state

theorem store_edges : store.edges = [((1, 0), ⟨true, some table⟩), ((0, 1), ⟨false, reverseOf table⟩), ((2, 1), ⟨true, some rack⟩),
    ((1, 2), ⟨false, reverseOf rack⟩)] := rfl

theorem store_supplied {a b : ℕ} {e : UEdge} (h : store.Supplied a b e) : (a = 1 ∧ b = 0 ∧ e = table) ∨ (a = 2 ∧ b = 1 ∧ e = rack) := by
  unfold Supplied at h
  rw [store_edges] at h
  simp only [List.mem_cons, Prod.mk.injEq, Edge.mk.injEq, List.not_mem_nil, or_false, Option.some.injEq] at h
  rcases h with h | h | h | h
  · exact .inl ⟨h.1.1, h.1.2, h.2.2⟩
  · cases h.2.1
  · exact .inr ⟨h.1.1, h.1.2, h.2.2⟩
  · cases h.2.1

end AbsoluteDemo

open AbsoluteDemo TimedDemo in
/-- **C105 fails** in a manager without a reference time even if all systems and the data have the same one: the data on the rack at the times 3
and 10 have no times at all in the hall, without an error. -/
theorem C105_absolute_counterexample (S : Slerp) : ∃ (m : Csm ℕ UEdge Unit), Reachable m ∧ 0 ∈ m.names ∧ 2 ∈ m.names ∧ m.refTime = none ∧
    (∀ a b e, m.Supplied a b e → Sound m.refTime true e ∧ (e.mag.dependent = true → e.mag.ref = some 0)) ∧
    m.transformTimed S ⟨1, .series (some 0) [(3, [0]), (10, [0])]⟩ 2 0 = .ok ⟨1, .series (some 0) []⟩ := by
  have hr : Reachable store := .addCs _ _ _ _ _ (.addCs _ _ _ _ _ (.init _ _ _))
  have h0 : 0 ∈ store.names := by show 0 ∈ [0, 1, 2]; simp
  have h2 : 2 ∈ store.names := by show 2 ∈ [0, 1, 2]; simp
  have s10 : store.Supplied 1 0 table := by unfold Supplied; rw [store_edges]; simp
  have s21 : store.Supplied 2 1 rack := by unfold Supplied; rw [store_edges]; simp
  have p20 : SimplePath store.Adj 2 0 [2, 1, 0] := ⟨.cons ((adj_iff_supplied hr.inv).2 ⟨_, .inl s21⟩)
    (.cons ((adj_iff_supplied hr.inv).2 ⟨_, .inl s10⟩) (.nil 0)), by simp⟩
  have hlink : store.linksOn [2, 1, 0] = some [rack, table] := by
    have l1 : store.linkOn 1 0 = some table := by
      unfold linkOn edge?
      rw [Dict.get?_of_mem hr.inv.edgesNodup s10]
    have l2 : store.linkOn 2 1 = some rack := by
      unfold linkOn edge?
      rw [Dict.get?_of_mem hr.inv.edgesNodup s21]
    simp only [linksOn, l1, l2]
  have hget : store.getFor S ⟨1, .series (some 0) [(3, [0]), (10, [0])]⟩ 2 0 =
      .ok ⟨1, some [0, 7], some 3, .static 1, .series [![0, 3, 5], ![0, 10, 5]]⟩ := by
    unfold getFor SData.time
    simp only
    unfold getAt
    rw [if_neg (by simp [Csm.has, h0, h2]), if_neg (by simp), (shortestPath_iff hr.inv h2 h0).2 p20]
    simp only [hlink]
    have hrt : store.refTime = none := rfl
    rw [hrt]
    simp [getCsU, addEdgesU, UEdge.onEdge, table, rack, TEdge.onEdge, TEdge.onEdge.interpolated, TEdge.ref, TEdge.interp, ELcs.interpTime, ELcs.interpOrient,
      ELcs.interpCoord, ELcs.frame, TLcs.time, Time.ofTime, Time.make, Time.monotonic, Time.asTimedelta, Time.referenceTime, TEdge.turn,
      Comp.isSeries, TLcs.dependent, UTLcs.add, TLcs.unifyRefs, TLcs.interpTime, TLcs.mergeTimes, Comp.map₂, bind, Except.bind, Except.map]
  refine ⟨store, hr, h0, h2, rfl, fun a b e h => ?_, ?_⟩
  · rcases store_supplied h with ⟨_, _, rfl⟩ | ⟨_, _, rfl⟩
    · exact ⟨table_absolute, fun _ => rfl⟩
    · exact ⟨rack_sound, fun h => by cases h⟩
  · simp only [transformTimed, hget, UTLcs.apply, TLcs.lab, Lab.exact, Lab.inner]
    simp [Dict.get?]

end Csm
end Weldx
