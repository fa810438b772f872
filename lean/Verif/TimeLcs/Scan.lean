import Verif.TimeLcs.TimedData

/-!
# Data with times that are assigned to a moving system (C106)

Source: `/repo/weldx/transformations/cs_manager.py` 577-630 (`assign_data`) with `target_system`, 1709-1757 (`transform_data`),
974-1006 (`get_data`).

`assign_data` changes the manager in its last statement only, so that every exception leaves it as it was.

Simplifications: as in `Verif/TimeLcs/TimedData.lean`; the name of the data is a text (line 611 is not modelled).
-/

set_option linter.unusedSectionVars false

namespace Weldx

open Ip Matrix Csm TLcs

namespace Csm
variable {N D : Type} [DecidableEq N]

/-! ### model -/

/-- the system in which the data are stored and the data, `cs_manager.py` 619-626 -/
noncomputable def placeTimed (S : Slerp) (m : Csm N UEdge SData) (data : SData) (ref : N) : Option N → Except (CsmError ⊕ TimeError) (N × SData)
  | none => .ok (ref, data)
  | some t => if m.has t then match m.transformTimed S data ref t with
      | .error x => .error x
      | .ok r => .ok (t, r)
    else .error (.inl .valueError)

/-- `assign_data`, `cs_manager.py` 577-630: the manager afterwards and the result -/
noncomputable def assignTimed (S : Slerp) (data : SData) (d ref : N) (target : Option N) (m : Csm N UEdge SData) :
    Csm N UEdge SData × Except (CsmError ⊕ TimeError) Unit :=
  if d ∈ m.dataNames then (m, .error (.inl .valueError))
  else if m.has ref then match m.placeTimed S data ref target with
    | .error x => (m, .error x)
    | .ok (cs, r) => match Dict.get? m.nodes cs with
      | none => (m, .error (.inl .keyError))
      | some ds => ({ m with nodes := Dict.set m.nodes cs (Dict.set ds d r) }, .ok ())
  else (m, .error (.inl .valueError))

/-! ### lemmas -/

theorem Chain.congr {D' : Type} {S : Slerp} {m : Csm N UEdge D} {m' : Csm N UEdge D'} (he : m'.edges = m.edges) (hr : m'.refTime = m.refTime) {x : Int} {a b : N}
    {F : Vec3 ℝ → Vec3 ℝ} (h : Chain S m x a b F) : Chain S m' x a b F := by
  have hs : ∀ {a b e}, m.Supplied a b e → m'.Supplied a b e := fun {a b e} h => by unfold Supplied at h ⊢; rw [he]; exact h
  induction h with
  | here a => exact .here a
  | forth h1 h2 _ ih => exact .forth (hs h1) (by rw [hr]; exact h2) ih
  | back h1 h2 h3 _ ih => exact .back (hs h1) (by rw [hr]; exact h2) h3 ih

theorem Direct.congr {D' : Type} {S : Slerp} {m : Csm N UEdge D} {m' : Csm N UEdge D'} (he : m'.edges = m.edges) (hr : m'.refTime = m.refTime) {x : Int} {p : List N}
    {F : Vec3 ℝ → Vec3 ℝ} (h : Direct S m x p F) : Direct S m' x p F := by
  have hs : ∀ {a b e}, m.Supplied a b e → m'.Supplied a b e := fun {a b e} h => by unfold Supplied at h ⊢; rw [he]; exact h
  induction h with
  | here a => exact .here a
  | forth h1 h2 _ ih => exact .forth (hs h1) (by rw [hr]; exact h2) ih
  | back h1 h2 _ ih => exact .back (hs h1) (by rw [hr]; exact h2) ih

/-- storing data keeps the manager in a state that can be reached, and only this name is affected -/
theorem store_spec {m : Csm N UEdge SData} (h : Reachable m) {d t : N} (hd : d ∉ m.dataNames) {ds : List (N × SData)}
    (hds : Dict.get? m.nodes t = some ds) (r : SData) : ∃ m', m' = { m with nodes := Dict.set m.nodes t (Dict.set ds d r) } ∧
      Reachable m' ∧ m'.names = m.names ∧ m'.findData d = .ok (t, r) ∧ ∀ n, n ≠ d → m'.findData n = m.findData n := by
  have ht : t ∈ m.names := Dict.get?_isSome.1 ⟨_, hds⟩
  have hr : Reachable ({ m with nodes := Dict.set m.nodes t (Dict.set ds d r) } : Csm N UEdge SData) := by
    have := Reachable.assignData (L := ℤˣ) (fun _ => .ok 1) (fun _ x => x) r d t none h
    have e : (Csm.assignData (L := ℤˣ) (fun _ => .ok 1) (fun _ x => x) r d t none m) =
        .ok () { m with nodes := Dict.set m.nodes t (Dict.set ds d r) } := by
      simp only [Csm.assignData, Py.get_bind, Py.ite_apply, Py.raise_apply]
      rw [if_neg hd, checkExists_ok ht, Py.lift_ok_bind]
      simp [hds]
    rw [e] at this
    exact this
  refine ⟨_, rfl, hr, Dict.keys_set_of_mem ht, (findData_iff hr.inv).2 ⟨Dict.set ds d r, ?_, ?_⟩, fun n hn => ?_⟩
  · dsimp only; rw [Dict.get?_set]; simp
  · rw [Dict.get?_set]; simp
  · refine findData_congr h.inv hr.inv fun cs v => ?_
    dsimp only
    rw [Dict.get?_set]
    by_cases hc : cs = t
    · subst hc
      simp only [if_true, hds, Option.some.injEq, exists_eq_left']
      rw [Dict.get?_set, if_neg hn]
    · rw [if_neg hc]

/-! ### theorems -/

/-- **C106.** Data with times that are assigned with a target system: the manager has the same systems and other data as before, and
below the target it has the data with the same times, whose points at each time are mapped by the composition of the systems on the
path at this point in time. -/
theorem C106_stored_partial {S : Slerp} (hS : SlerpOk S) {m : Csm N UEdge SData} (h : Reachable m) {a t d : N} (ha : a ∈ m.names)
    (ht : t ∈ m.names) (hd : d ∉ m.dataNames) {u : ℝ} (hu0 : 0 < u) {ref : Option Int} {l : List (Int × List (Vec3 ℝ))}
    (hl : (l.map Prod.fst).Pairwise (· < ·)) (hne : l ≠ []) (hr : ref = none ∨ ref = m.refTime)
    (hu : ∀ a b e, m.Supplied a b e → Sound m.refTime m.refTime.isSome e) :
    ∃ m' ref' l' p, assignTimed S ⟨u, .series ref l⟩ d a (some t) m = (m', .ok ()) ∧ Reachable m' ∧ m'.names = m.names ∧
      m'.edges = m.edges ∧ m'.refTime = m.refTime ∧ (∀ n, n ≠ d → m'.findData n = m.findData n) ∧
      m'.findData d = .ok (t, ⟨u, .series ref' l'⟩) ∧ (ref' = ref ∨ ref' = m.refTime) ∧ SimplePath m.Adj a t p ∧
      List.Forall₂ (fun (e e' : Int × List (Vec3 ℝ)) => e'.1 = e.1 ∧ (∃ F, Direct S m (moment m ref e.1) p F) ∧
        ∀ F, Direct S m (moment m ref e.1) p F → inMm u e'.2 = (inMm u e.2).map F) l l' := by
  obtain ⟨ref', l', p, h1, h2, h3, h4⟩ := C105_timed_partial hS h ha ht hu0 hl hne hr hu
  obtain ⟨ds, hds⟩ := Dict.get?_isSome.2 ht
  obtain ⟨m', rfl, k1, k2, k3, k4⟩ := store_spec h hd hds ⟨u, .series ref' l'⟩
  refine ⟨_, ref', l', p, ?_, k1, k2, rfl, rfl, k4, k3, h2, h3, h4⟩
  unfold assignTimed
  rw [if_neg hd, if_pos (by simp [Csm.has, ha])]
  simp only [placeTimed, if_pos (show m.has t = true by simp [Csm.has, ht]), h1, hds]

/-- **C106.** It does not matter in which system the data are stored: in every system the data that were assigned to `t` have the same times
and the points that the original data in `a` have there, at times at which both directions of all links are inverse to each other. -/
theorem C106_seen_partial {S : Slerp} (hS : SlerpOk S) {m : Csm N UEdge SData} (h : Reachable m) {a t c d : N} (ha : a ∈ m.names)
    (ht : t ∈ m.names) (hc : c ∈ m.names) (hd : d ∉ m.dataNames) {u : ℝ} (hu0 : 0 < u) {ref : Option Int} {l : List (Int × List (Vec3 ℝ))}
    (hl : (l.map Prod.fst).Pairwise (· < ·)) (hne : l ≠ []) (hr : ref = none ∨ ref = m.refTime)
    (hu : ∀ a b e, m.Supplied a b e → Sound m.refTime m.refTime.isSome e)
    (hx : ∀ p ∈ l, ∀ a b e, m.Supplied a b e → e.mm.ExactCsm m.refTime (moment m ref p.1)) :
    ∃ m' ref' l', assignTimed S ⟨u, .series ref l⟩ d a (some t) m = (m', .ok ()) ∧
      m'.getTimed S d (some c) = .ok ⟨u, .series ref' l'⟩ ∧ (ref' = ref ∨ ref' = m.refTime) ∧
      List.Forall₂ (fun (e e' : Int × List (Vec3 ℝ)) => e'.1 = e.1 ∧ (∃ F, Chain S m (moment m ref e.1) a c F) ∧
        ∀ F, Chain S m (moment m ref e.1) a c F → inMm u e'.2 = (inMm u e.2).map F) l l' := by
  obtain ⟨m', r₁, l₁, p, h1, h2, h3, h4, h5, _, h7, h8, h9, h10⟩ := C106_stored_partial hS h ha ht hd hu0 hl hne hr hu
  have lab : l₁.map Prod.fst = l.map Prod.fst := by
    clear h1 h7 hl hne hx
    induction h10 with
    | nil => rfl
    | cons h _ ih => rw [List.map_cons, List.map_cons, h.1, ih]
  obtain ⟨_, g2⟩ := C105_get_data S (m := m') (n := d)
  obtain ⟨_, g3, g4⟩ := g2 t _ h7
  by_cases hct : c = t
  · subst hct
    refine ⟨m', r₁, l₁, h1, g3, h8, ?_⟩
    rw [List.forall₂_iff_get] at h10 ⊢
    refine ⟨h10.1, fun i hi hi' => ?_⟩
    obtain ⟨b1, ⟨F, b2⟩, b3⟩ := h10.2 i hi hi'
    have hex := hx _ (List.getElem_mem hi)
    have cF := direct_chain hS hu hex h9.1 b2
    refine ⟨b1, ⟨F, cF⟩, fun G hG => ?_⟩
    rw [chain_unique hS hu hex h ha hc hG cF]
    exact b3 F b2
  · have hr₁ : r₁ = none ∨ r₁ = m.refTime := by
      rcases h8 with rfl | h8
      · exact hr
      · exact .inr h8
    have hmom : ∀ x, moment m' r₁ x = moment m ref x := by
      intro x
      unfold moment
      rw [h5]
      rcases hr₁ with rfl | rfl <;> rcases hr with rfl | rfl <;> cases m.refTime <;> simp
    have hsup : ∀ {a b e}, m'.Supplied a b e → m.Supplied a b e := fun {a b e} h => by unfold Supplied at h ⊢; rw [← h4]; exact h
    obtain ⟨r₂, l₂, p₂, k1, k2, k3, k4⟩ := C105_timed_partial hS h2 (a := t) (b := c) (by rw [h3]; exact ht) (by rw [h3]; exact hc) hu0
      (ref := r₁) (l := l₁) (by rw [lab]; exact hl) (by
        intro e
        rw [e] at lab
        exact hne (List.map_eq_nil_iff.1 lab.symm)) (by rw [h5]; exact hr₁) (fun a b e k => by rw [h5]; exact hu a b e (hsup k))
    refine ⟨m', r₂, l₂, h1, (g4 c hct).trans k1, ?_, ?_⟩
    · rcases k2 with rfl | k2
      · exact h8
      · exact .inr (k2.trans h5)
    · rw [List.forall₂_iff_get] at h10 k4 ⊢
      refine ⟨h10.1.trans k4.1, fun i hi hi' => ?_⟩
      have hi₁ : i < l₁.length := by rw [← h10.1]; exact hi
      obtain ⟨b1, ⟨F, b2⟩, b3⟩ := h10.2 i hi hi₁
      obtain ⟨e1, ⟨G, e2⟩, e3⟩ := k4.2 i hi₁ hi'
      have e3' := e3 G e2
      rw [b1, hmom] at e2
      have hex := hx _ (List.getElem_mem hi)
      have cF := direct_chain hS hu hex h9.1 b2
      have hadj : m'.Adj = m.Adj := by unfold Adj; rw [h4]
      have cG := direct_chain hS hu hex (hadj ▸ k3.1) (e2.congr h4.symm h5.symm)
      have cc := cF.append cG
      refine ⟨e1.trans b1, ⟨_, cc⟩, fun H hH => ?_⟩
      rw [chain_unique hS hu hex h ha hc hH cc, e3', b3 F b2, List.map_map]
      rfl

/-- **C106.** When the call is refused, with which error, and that the manager then stays as it was; without a target the data are
stored as they are. -/
theorem C106_refused (S : Slerp) {m : Csm N UEdge SData} (h : Reachable m) (data : SData) (d a : N) :
    (∀ x m' target, assignTimed S data d a target m = (m', .error x) → m' = m) ∧
    (∀ target, d ∈ m.dataNames ∨ a ∉ m.names → assignTimed S data d a target m = (m, .error (.inl .valueError))) ∧
    (∀ t, t ∉ m.names → assignTimed S data d a (some t) m = (m, .error (.inl .valueError))) ∧
    (∀ t x, t ∈ m.names → d ∉ m.dataNames → a ∈ m.names → m.transformTimed S data a t = .error x →
      assignTimed S data d a (some t) m = (m, .error x)) ∧
    (d ∉ m.dataNames → a ∈ m.names → ∃ m', assignTimed S data d a none m = (m', .ok ()) ∧ m'.findData d = .ok (a, data) ∧
      ∀ n, n ≠ d → m'.findData n = m.findData n) := by
  refine ⟨fun x m' target he => ?_, fun target hn => ?_, fun t ht => ?_, fun t x ht hd ha hx => ?_, fun hd ha => ?_⟩
  · unfold assignTimed at he
    repeat' split at he
    all_goals first | (cases he; rfl) | cases he
  · unfold assignTimed
    by_cases hd : d ∈ m.dataNames
    · rw [if_pos hd]
    · rw [if_neg hd, if_neg (by simpa [Csm.has] using hn.resolve_left hd)]
  · unfold assignTimed
    by_cases hd : d ∈ m.dataNames
    · rw [if_pos hd]
    · rw [if_neg hd]
      have : ¬ m.has t = true := by simpa [Csm.has] using ht
      by_cases ha : m.has a = true
      · rw [if_pos ha]
        simp only [placeTimed, if_neg this]
      · rw [if_neg ha]
  · unfold assignTimed
    rw [if_neg hd, if_pos (by simp [Csm.has, ha])]
    simp only [placeTimed, if_pos (show m.has t = true by simp [Csm.has, ht]), hx]
  · obtain ⟨ds, hds⟩ := Dict.get?_isSome.2 ha
    obtain ⟨m', rfl, _, _, k3, k4⟩ := store_spec h hd hds data
    refine ⟨_, ?_, k3, k4⟩
    unfold assignTimed
    rw [if_neg hd, if_pos (by simp [Csm.has, ha])]
    simp only [placeTimed, hds]

/-! ### examples -/

namespace ScanDemo
open ManagerDemo TimedDemo

/-- the hall of C105 as a manager that can hold such data: the table (1) moves in the hall (0) -/
noncomputable def site : Csm ℕ UEdge SData := (addCs 1 0 table true true (init 0 100 (some 0))).state

theorem site_edges : site.edges = [((1, 0), ⟨true, some table⟩), ((0, 1), ⟨false, reverseOf table⟩)] := rfl

theorem site_supplied {a b : ℕ} {e : UEdge} (h : site.Supplied a b e) : a = 1 ∧ b = 0 ∧ e = table := by
  unfold Supplied at h
  rw [site_edges] at h
  simp only [List.mem_cons, Prod.mk.injEq, Edge.mk.injEq, List.not_mem_nil, or_false, Option.some.injEq] at h
  rcases h with h | h
  · exact ⟨h.1.1, h.1.2, h.2.2⟩
  · cases h.2.1

/-- the hypotheses of `C106_stored_partial` and `C106_seen_partial`: a scan that is made on the table is assigned to the hall -/
example : Reachable site ∧ 0 ∈ site.names ∧ 1 ∈ site.names ∧ 7 ∉ site.dataNames ∧
    (([(0, [![1, 0, 0]]), (10, [![2, 0, 0]])] : List (Int × List (Vec3 ℝ))).map Prod.fst).Pairwise (· < ·) ∧ site.refTime = some 0 ∧
    (∀ a b e, site.Supplied a b e → Sound site.refTime site.refTime.isSome e) ∧
    ∀ x a b e, site.Supplied a b e → e.mm.ExactCsm site.refTime x := by
  refine ⟨.addCs _ _ _ _ _ (.init _ _ _), ?_, ?_, ?_, by simp, rfl, fun a b e h => ?_, fun x a b e h => ?_⟩
  · show 0 ∈ [0, 1]; simp
  · show 1 ∈ [0, 1]; simp
  · show 7 ∉ []; simp
  · rw [(site_supplied h).2.2]; exact table_sound
  · rw [(site_supplied h).2.2]; trivial

end ScanDemo

open TimedDemo ScanDemo in
/-- **C106 fails** for data with another reference time than the manager: of a scan with two times, assigned to the hall, one is lost
without an error, and the other one is stored where the table was ten units of time before (see `C105_counterexample`). Without a
target system both are stored. -/
theorem C106_counterexample (S : Slerp) : ∃ (m : Csm ℕ UEdge SData) (scan : SData), Reachable m ∧ 0 ∈ m.names ∧ 1 ∈ m.names ∧ 7 ∉ m.dataNames ∧
    (∀ a b e, m.Supplied a b e → Sound m.refTime m.refTime.isSome e) ∧ m.refTime = some 0 ∧
    scan = ⟨1, .series (some 10) [(0, [0]), (10, [0])]⟩ ∧
    (∃ m', assignTimed S scan 7 1 (some 0) m = (m', .ok ()) ∧ m'.findData 7 = .ok (0, ⟨1, .series (some 10) [(10, [![0, 10, 0]])]⟩)) ∧
    (∃ F, Direct S m 20 [1, 0] F) ∧ (∀ F, Direct S m 20 [1, 0] F → F 0 = ![0, 20, 0]) ∧
    ∃ m', assignTimed S scan 7 1 none m = (m', .ok ()) ∧ m'.findData 7 = .ok (1, scan) := by
  obtain ⟨hr, h0, h1, h7⟩ : Reachable site ∧ 0 ∈ site.names ∧ 1 ∈ site.names ∧ 7 ∉ site.dataNames := by
    refine ⟨.addCs _ _ _ _ _ (.init _ _ _), ?_, ?_, ?_⟩
    · show 0 ∈ [0, 1]; simp
    · show 1 ∈ [0, 1]; simp
    · show 7 ∉ []; simp
  have hsup : site.Supplied 1 0 table := by unfold Supplied; rw [site_edges]; simp
  have hadj : site.Adj 1 0 := (adj_iff_supplied hr.inv).2 ⟨_, .inl hsup⟩
  have p10 : SimplePath site.Adj 1 0 [1, 0] := ⟨.cons hadj (.nil 0), by simp⟩
  have hlink : site.linksOn [1, 0] = some [table] := by
    have : site.linkOn 1 0 = some table := by
      unfold linkOn edge?
      rw [Dict.get?_of_mem hr.inv.edgesNodup hsup]
    simp only [linksOn, this]
  have hget : site.getFor S ⟨1, .series (some 10) [(0, [0]), (10, [0])]⟩ 1 0 =
      .ok ⟨1, some [10, 20], some 0, .static 1, .series [![0, 10, 0], ![0, 20, 0]]⟩ := by
    unfold getFor SData.time
    simp only
    unfold getAt
    rw [if_neg (by simp [Csm.has, h0, h1]), if_neg (by simp), (shortestPath_iff hr.inv h1 h0).2 p10]
    simp only [hlink]
    have hrt : site.refTime = some 0 := rfl
    rw [hrt]
    simp [getCsU, UEdge.onEdge, table, TEdge.onEdge, TEdge.onEdge.interpolated, TEdge.ref, TEdge.interp, ELcs.interpTime, ELcs.interpOrient,
      ELcs.interpCoord, ELcs.frame, TLcs.time, Time.ofTime, Time.make, Time.monotonic, Time.asTimedelta, Time.referenceTime, TEdge.turn,
      Comp.isSeries, bind, Except.bind, Except.map]
  have htr : site.transformTimed S ⟨1, .series (some 10) [(0, [0]), (10, [0])]⟩ 1 0 = .ok ⟨1, .series (some 10) [(10, [![0, 10, 0]])]⟩ := by
    simp only [transformTimed, hget, UTLcs.apply, TLcs.lab, Lab.exact, Lab.inner]
    simp [Dict.get?]
  obtain ⟨_, _, _, _, hplain⟩ := C106_refused S hr (⟨1, .series (some 10) [(0, [0]), (10, [0])]⟩ : SData) 7 1
  obtain ⟨m₂, q1, q2, _⟩ := hplain h7 h1
  have at20 : ∀ f, table.mm.AtCsm S site.refTime 20 f ↔ f = ⟨1, ![0, 20, 0]⟩ := by
    intro f
    show (∃ g : Lcs ℝ, CompAt S _ (.static 1) 20 g.orientation ∧ g.coordinates = (1 : ℝ) • ![0, ((20 - 0 : Int) : ℝ), 0] ∧ f = if false then g.invert else g) ↔ _
    constructor
    · rintro ⟨g, g1, g2, hf⟩
      have hf' : f = g := hf
      rw [hf']
      refine Lcs.ext ?_ ?_
      · generalize g.orientation = R at g1
        cases g1
        rfl
      · simp [g2]
    · rintro rfl
      exact ⟨_, .static, by simp, rfl⟩
  obtain ⟨ds, hds⟩ := Dict.get?_isSome.2 h0
  obtain ⟨m', rfl, _, _, k3, _⟩ := store_spec hr h7 hds ⟨1, .series (some 10) [(10, [![0, 10, 0]])]⟩
  refine ⟨site, _, hr, h0, h1, h7, fun a b e h => by rw [(site_supplied h).2.2]; exact table_sound, rfl, rfl, ⟨_, ?_, k3⟩,
    ⟨_, .forth hsup ((at20 _).2 rfl) (.here 0)⟩, fun F hF => ?_, m₂, q1, q2⟩
  · unfold assignTimed
    rw [if_neg h7, if_pos (by simp [Csm.has, h1])]
    simp only [placeTimed, if_pos (show site.has 0 = true by simp [Csm.has, h0]), htr, hds]
  · cases hF with
    | forth k1 k2 k3 =>
      cases (site_supplied k1).2.2
      cases k3
      rw [(at20 _).1 k2]
      funext i
      fin_cases i <;> simp [Lcs.toParent_eq]
    | back k1 k2 k3 => exact absurd (site_supplied k1).1 (by decide)

end Csm
end Weldx
