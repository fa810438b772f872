import Verif.Csm.SerialMap
import Verif.TimeLcs.TagProps
import Verif.TimeLcs.UnitsProps
import Verif.TimeLcs.SlerpProps
import Verif.TimeLcs.Reverse

/-!
# Queries of a manager that was read from a file (C101)

Source: `/repo/weldx/transformations/cs_manager.py` 1206-1246 (`get_cs`);
`/repo/weldx/tags/core/transformations/coordinate_system_hierarchy.py` 15-35;
`/repo/weldx/tags/core/transformations/local_coordinate_system.py` 17-75.

This joins the graph of `Verif/Csm/`, the time dependent systems with units of `Verif/TimeLcs/Units.lean` and the tree of a
system in `Verif/TimeLcs/Tag.lean`.

Simplifications: as in these files; the systems are discrete (not described by an expression).
-/

set_option linter.unusedSectionVars false

namespace Weldx

open Ip Matrix Csm TLcs

/-! ### model -/

/-- what the manager uses of a `LocalCoordinateSystem` -/
noncomputable instance : LcsLike ULcs where
  invert u := ⟨u.sys.invert, u.unit⟩
  isSeries _ := false
  isTimeDependent u := u.sys.dependent
  refTime u := u.sys.ref

namespace Csm
variable {N D : Type} [DecidableEq N]

/-- the transformation on an edge, `self.edges[edge]["transformation"]` in `cs_manager.py` 1027 -/
def storedLink (m : Csm N ULcs D) (a b : N) : Option UEdge := match m.edge? a b with
  | some ⟨_, some u⟩ => some ⟨u.unit, .discrete u.sys⟩
  | _ => none

/-- the transformations on the edges of a path, `cs_manager.py` 1214 -/
def pathLinks (m : Csm N ULcs D) : List N → Option (List UEdge)
  | a :: b :: rest => match m.storedLink a b, pathLinks m (b :: rest) with
    | some e, some es => some (e :: es)
    | _, _ => none
  | _ => some []

/-- `get_cs`, `cs_manager.py` 1199-1246, for a given time -/
noncomputable def queryAt (S : Slerp) (m : Csm N ULcs D) (a b : N) (time : Time) (timeRef : Option Int) :
    Except (CsmError ⊕ TimeError) UTLcs :=
  if ¬ m.has a ∨ ¬ m.has b then .error (.inl .valueError)
  else if a = b then .ok .default
  else match m.shortestPath a b with
    | none => .error (.inl .noPath)
    | some p => match m.pathLinks p with
      | none => .error (.inl .keyError)
      | some es => match getCsU S m.refTime es time timeRef with
        | .error x => .error (.inr x)
        | .ok c => .ok c

/-- the reference time in `time_union`, `cs_manager.py` 1697-1703, if the manager has none -/
noncomputable def earliestRef (m : Csm N ULcs D) : Option Int := (m.lcsTimeDependent.filterMap LcsLike.refTime).min?

/-- `get_cs`, `cs_manager.py` 1199-1246, without a time -/
noncomputable def queryDefault (S : Slerp) (m : Csm N ULcs D) (a b : N) : Except (CsmError ⊕ TimeError) UTLcs :=
  if ¬ m.has a ∨ ¬ m.has b then .error (.inl .valueError)
  else if a = b then .ok .default
  else match m.shortestPath a b with
    | none => .error (.inl .noPath)
    | some p => match m.pathLinks p with
      | none => .error (.inl .keyError)
      | some es => match getCsDefaultU S m.refTime m.earliestRef es with
        | .error x => .error (.inr x)
        | .ok c => .ok c

end Csm

/-! ### specification -/

/-- systems as the constructor creates them, in a unit of length -/
structure ULcs.Made (u : ULcs) : Prop where
  wf : u.sys.WF
  still : u.sys.dependent = false → u.sys.times = none
  unit : 0 < u.unit

/-- the tolerance of the file format does not matter: orientations that are close to the identity are the identity, and
coordinates that are close to zero are zero -/
structure ULcs.Clear (u : ULcs) : Prop where
  orient : unityRotation u.sys.orient → CompAll (· = 1) u.sys.orient
  coord : unityTranslation u.sys.coord → CompAll (· = 0) u.sys.coord

/-- what is read of the system still depends on the time: one of its components is not constantly the identity or zero -/
def ULcs.Moves (u : ULcs) : Prop := u.sys.dependent = true → u.clean.sys.dependent = true

/-! ### lemmas -/

/-- the second component is the first one, or the static value of the constant first one -/
def CompTwin {V : Type} (v : V) (k k' : Comp V) : Prop := k' = k ∨ (k' = .static v ∧ CompAll (· = v) k)

theorem zip_const {V : Type} {ts : List Int} {l : List V} {v : V} (h : ∀ x ∈ l, x = v) : ∀ p ∈ ts.zip l, p.2 = v := fun p hp =>
  h _ (List.of_mem_zip (a := p.1) (b := p.2) hp).2

theorem compAt_const {V : Type} {mix : V → V → ℝ → V} {v : V} (hm : ∀ w, mix v v w = v) {ts : List Int} {k : Comp V}
    (hk : CompAll (· = v) k) {t : Int} {x : V} (h : CompAt mix ts k t x) : x = v := by
  cases h with
  | static => exact hk
  | series h => cases h with
    | before hp _ => exact zip_const hk _ (List.mem_of_mem_head? hp)
    | after hp _ => exact zip_const hk _ (List.mem_of_getLast? hp)
    | between hp hq _ _ =>
      rw [zip_const hk _ (List.mem_of_getElem? hp), zip_const hk _ (List.mem_of_getElem? hq)]
      exact hm _

theorem compTwin_at {V : Type} {mix : V → V → ℝ → V} {v : V} (hm : ∀ w, mix v v w = v) {ts ts' : List Int} {k k' : Comp V}
    (h : CompTwin v k k') {t t' : Int} (ht : k'.isSeries = true → ts' = ts ∧ t' = t) {x : V} (hx : CompAt mix ts k t x) :
    CompAt mix ts' k' t' x := by
  rcases h with rfl | ⟨rfl, hk⟩
  · cases hx with
    | static => exact .static
    | series hv =>
      obtain ⟨rfl, rfl⟩ := ht rfl
      exact .series hv
  · rw [compAt_const hm hk hx]
    exact .static

theorem zipWith_const_left {A B C : Type} (f : A → B → C) {v : A} : ∀ (l : List A) (m : List B), l.length = m.length →
    (∀ x ∈ l, x = v) → List.zipWith f l m = m.map (f v)
  | [], [], _, _ => rfl
  | a :: l, b :: m, hl, h => by
    rw [List.zipWith_cons_cons, List.map_cons, h a (by simp),
      zipWith_const_left f l m (by simpa using hl) fun x hx => h x (List.mem_cons_of_mem _ hx)]

theorem zipWith_const_right {A B C : Type} (f : A → B → C) {v : B} : ∀ (l : List A) (m : List B), l.length = m.length →
    (∀ x ∈ m, x = v) → List.zipWith f l m = l.map (f · v)
  | [], [], _, _ => rfl
  | a :: l, b :: m, hl, h => by
    rw [List.zipWith_cons_cons, List.map_cons, h b (by simp),
      zipWith_const_right f l m (by simpa using hl) fun x hx => h x (List.mem_cons_of_mem _ hx)]

theorem compTwin_map₂ {A B C : Type} (f : A → B → C) {a : A} {b : B} {k k' : Comp A} {j j' : Comp B} (hk : CompTwin a k k')
    (hj : CompTwin b j j') {n : ℕ} (lk : CompLen n k) (lj : CompLen n j) :
    Comp.map₂ f k' j' = Comp.map₂ f k j ∨ ∃ c, Comp.map₂ f k' j' = .static c ∧ CompAll (· = c) (Comp.map₂ f k j) := by
  rcases hk with rfl | ⟨rfl, hk⟩
  · rcases hj with rfl | ⟨rfl, hj⟩
    · exact .inl rfl
    · cases k' with
      | static x =>
        refine .inr ⟨f x b, rfl, ?_⟩
        cases j with
        | static y => exact congrArg _ hj
        | series m =>
          intro z hz
          obtain ⟨y, hy, rfl⟩ := List.mem_map.1 hz
          exact congrArg _ (hj y hy)
      | series l => cases j with
        | static y => left; rw [show y = b from hj]
        | series m =>
          left
          show Comp.series (l.map (f · b)) = .series (List.zipWith f l m)
          rw [zipWith_const_right f l m (by rw [show l.length = n from lk, show m.length = n from lj]) hj]
  · rcases hj with rfl | ⟨rfl, hj⟩
    · cases j' with
      | static y =>
        refine .inr ⟨f a y, rfl, ?_⟩
        cases k with
        | static x => exact congrArg (f · y) hk
        | series l =>
          intro z hz
          obtain ⟨x, hx, rfl⟩ := List.mem_map.1 hz
          exact congrArg (f · y) (hk x hx)
      | series m => cases k with
        | static x => left; rw [show x = a from hk]
        | series l =>
          left
          show Comp.series (m.map (f a)) = .series (List.zipWith f l m)
          rw [zipWith_const_left f l m (by rw [show l.length = n from lk, show m.length = n from lj]) hk]
    · exact .inr ⟨f a b, rfl, compAll_map₂ (P := (· = a)) (Q := (· = b)) (fun x y hx hy => by rw [hx, hy]) hk hj⟩

/-- the second system gives the same values as the first -/
structure SysTwin (c c' : TLcs) : Prop where
  orient : CompTwin 1 c.orient c'.orient
  coord : ∃ v, CompTwin v c.coord c'.coord
  clock : c'.dependent = true → c'.times = c.times ∧ c'.ref = c.ref

theorem CompTwin.series {V : Type} {v : V} {k k' : Comp V} (h : CompTwin v k k') (hs : k'.isSeries = true) : k.isSeries = true := by
  rcases h with rfl | ⟨rfl, _⟩
  · exact hs
  · cases hs

theorem SysTwin.dependent {c c' : TLcs} (h : SysTwin c c') (hd : c'.dependent = true) : c.dependent = true := by
  obtain ⟨v, hv⟩ := h.coord
  unfold TLcs.dependent at hd ⊢
  rw [Bool.or_eq_true] at hd ⊢
  exact hd.imp h.orient.series hv.series

theorem SysTwin.invert {c c' : TLcs} (h : SysTwin c c') (hw : c.WF) : SysTwin c.invert c'.invert := by
  obtain ⟨v, hv⟩ := h.coord
  refine ⟨?_, ?_, fun hd => h.clock (by rw [← TLcs.invert_dep]; exact hd)⟩
  · rcases h.orient with e | ⟨e, hk⟩
    · left; unfold TLcs.invert; rw [e]
    · right
      refine ⟨by unfold TLcs.invert; rw [e]; simp [Comp.map], ?_⟩
      exact TLcs.compAll_map (P := (· = 1)) (fun a ha => by rw [ha]; simp) hk
  · have : ∃ n, CompLen n c.orient ∧ CompLen n c.coord := by
      cases hd : c.dependent with
      | true => obtain ⟨l, _, _, _, h4, h5⟩ := hw.series hd; exact ⟨_, h4, h5⟩
      | false =>
        unfold TLcs.dependent at hd
        rw [Bool.or_eq_false_iff] at hd
        obtain ⟨R, hR⟩ := isSeries_false hd.1
        obtain ⟨T, hT⟩ := isSeries_false hd.2
        exact ⟨0, by rw [hR]; trivial, by rw [hT]; trivial⟩
    obtain ⟨n, l1, l2⟩ := this
    rcases compTwin_map₂ (fun (R : Mat3 ℝ) (T : Vec3 ℝ) => Rᵀ *ᵥ (-T)) h.orient hv l1 l2 with e | ⟨w, e⟩
    · exact ⟨0, .inl e⟩
    · exact ⟨w, .inr e⟩

theorem linMix_same {V : Type} [AddCommGroup V] [Module ℝ V] (v : V) (w : ℝ) : linMix v v w = v := by
  rw [linMix, ← add_smul]; simp

theorem SysTwin.values {S : Slerp} (hS1 : ∀ w, S 1 1 w = 1) {c c' : TLcs} (h : SysTwin c c') {t t' : Int}
    (ht : c'.dependent = true → t' = t) {f : Lcs ℝ} (hf : c.At S t f) : c'.At S t' f := by
  obtain ⟨v, hv⟩ := h.coord
  have hc : c'.dependent = true → c'.clock = c.clock := fun hd => by
    rw [TLcs.clock, TLcs.clock, (h.clock hd).1, (h.clock hd).2]
  have d1 : c'.orient.isSeries = true → c'.dependent = true := fun h => by unfold TLcs.dependent; rw [h]; rfl
  have d2 : c'.coord.isSeries = true → c'.dependent = true := fun h => by unfold TLcs.dependent; rw [h, Bool.or_true]
  exact ⟨compTwin_at hS1 h.orient (fun hs => ⟨hc (d1 hs), ht (d1 hs)⟩) hf.1,
    compTwin_at (linMix_same v) hv (fun hs => ⟨hc (d2 hs), ht (d2 hs)⟩) hf.2⟩

/-- what is read of a system, in millimetres -/
theorem clean_twin {u : ULcs} (hc : u.Clear) : SysTwin (u.sys.scale u.unit) (u.clean.sys.scale u.clean.unit) := by
  classical
  have horient : u.clean.sys.orient = if unityRotation u.sys.orient then .static 1 else u.sys.orient := by
    simp only [ULcs.clean, TLcs.clean]; split_ifs <;> rfl
  have hcoord : u.clean.sys.coord = if unityTranslation u.sys.coord then .static 0 else u.sys.coord := by
    simp only [ULcs.clean, TLcs.clean]; split_ifs <;> rfl
  refine ⟨?_, ⟨0, ?_⟩, fun hd => ?_⟩
  · show CompTwin 1 u.sys.orient u.clean.sys.orient
    rw [horient]
    split_ifs with h
    · exact .inr ⟨rfl, hc.orient h⟩
    · exact .inl rfl
  · show CompTwin 0 (u.sys.coord.map (u.unit • ·)) (u.clean.sys.coord.map (u.clean.unit • ·))
    rw [hcoord]
    have hu : u.clean.unit = if unityTranslation u.sys.coord then 1 else u.unit := rfl
    rw [hu]
    split_ifs with h
    · refine .inr ⟨by simp [Comp.map], ?_⟩
      exact TLcs.compAll_map (P := (· = 0)) (fun a ha => by rw [ha]; simp) (hc.coord h)
    · exact .inl rfl
  · rw [TLcs.scale_dependent] at hd
    show u.clean.sys.times = u.sys.times ∧ u.clean.sys.ref = u.sys.ref
    unfold TLcs.dependent at hd
    simp only [ULcs.clean, TLcs.clean] at hd ⊢
    split_ifs at hd ⊢ <;> first | exact ⟨rfl, rfl⟩ | contradiction | cases hd

theorem clean_made (S : Slerp) {u : ULcs} (h : u.Made) : u.clean.Made := by
  classical
  obtain ⟨h1, t, h2, h3⟩ := C72_stable (S := S) h.wf
  refine ⟨h1, ((C72_exact_iff h1).1 ⟨t, h2, h3⟩).2.2, ?_⟩
  unfold ULcs.clean
  dsimp only
  split_ifs
  · norm_num
  · exact h.unit

/-- the links of the written and of the read manager -/
structure LinkTwin (S : Slerp) (csmRef : Option Int) (abs : Bool) (e e' : UEdge) : Prop where
  pos : 0 < e.unit
  pos' : 0 < e'.unit
  wf : e.mm.WF
  wf' : e'.mm.WF
  kind : e.mm.dependent = true → csmRef = none → e.mm.ref.isSome = abs
  kind' : e'.mm.dependent = true → csmRef = none → e'.mm.ref.isSome = abs
  same : ∀ x f, e.mm.AtCsm S csmRef x f → e'.mm.AtCsm S csmRef x f

theorem SysTwin.csm {S : Slerp} (hS1 : ∀ w, S 1 1 w = 1) {csmRef : Option Int} {c c' : TLcs} (h : SysTwin c c') {x : Int} {f : Lcs ℝ}
    (hf : (TEdge.discrete c).AtCsm S csmRef x f) : (TEdge.discrete c').AtCsm S csmRef x f := by
  obtain ⟨y, hy, _⟩ := TEdge.csm_cases csmRef (.discrete c) x
  obtain ⟨z, hz, _⟩ := TEdge.csm_cases csmRef (.discrete c') x
  cases hd : c'.dependent with
  | false => exact (hz S f).2 (h.values hS1 (fun h => by rw [hd] at h; cases h) ((hy S f).1 hf))
  | true =>
    have e := (h.clock hd).2
    unfold TEdge.AtCsm TEdge.ref at hf ⊢
    dsimp only at hf ⊢
    rw [e]
    cases hr : c.ref with
    | some r => rw [hr] at hf; exact h.values hS1 (fun _ => rfl) hf
    | none =>
      rw [hr] at hf
      cases csmRef with
      | none => exact h.values hS1 (fun _ => rfl) hf
      | some r => exact h.values hS1 (fun _ => rfl) hf

theorem linkTwin_of {S : Slerp} (hS1 : ∀ w, S 1 1 w = 1) {csmRef : Option Int} {abs : Bool} {u u' : ULcs} (h : u.Made) (h' : u'.Made)
    (ht : SysTwin (u.sys.scale u.unit) (u'.sys.scale u'.unit))
    (hk : u.sys.dependent = true → csmRef = none → u.sys.ref.isSome = abs) :
    LinkTwin S csmRef abs ⟨u.unit, .discrete u.sys⟩ ⟨u'.unit, .discrete u'.sys⟩ := by
  have w : ∀ {u : ULcs}, u.Made → (TEdge.discrete (u.sys.scale u.unit)).WF := fun {u} h =>
    ⟨h.wf.scale _, fun hd => h.still (by rw [TLcs.scale_dependent] at hd; exact hd)⟩
  refine ⟨h.unit, h'.unit, w h, w h', fun hd hr => ?_, fun hd hr => ?_, fun x f hf => ht.csm hS1 hf⟩
  · exact hk (by rw [← TLcs.scale_dependent u.unit]; exact hd) hr
  · have hd : (u'.sys.scale u'.unit).dependent = true := hd
    have : u'.sys.ref = u.sys.ref := (ht.clock hd).2
    show u'.sys.ref.isSome = abs
    rw [this]
    exact hk (by rw [← TLcs.scale_dependent u.unit]; exact ht.dependent hd) hr

theorem invert_made {u : ULcs} (h : u.Made) : (⟨u.sys.invert, u.unit⟩ : ULcs).Made :=
  ⟨TLcs.invert_wf h.wf, fun hd => h.still (by rw [← TLcs.invert_dep]; exact hd), h.unit⟩

theorem values_exist (S : Slerp) (csmRef : Option Int) (abs : Bool) (x : Int) {es es' : List UEdge}
    (h : List.Forall₂ (LinkTwin S csmRef abs) es es') : ∃ fs, List.Forall₂ (fun e g => TEdge.AtCsm S csmRef e x g) (es.map UEdge.mm) fs ∧
      List.Forall₂ (fun e g => TEdge.AtCsm S csmRef e x g) (es'.map UEdge.mm) fs := by
  induction h with
  | nil => exact ⟨[], .nil, .nil⟩
  | @cons e e' es es' h _ ih =>
    obtain ⟨fs, h1, h2⟩ := ih
    obtain ⟨y, hy, _⟩ := TEdge.csm_cases csmRef e.mm x
    obtain ⟨f, hf⟩ := TEdge.At_exists S h.wf y
    exact ⟨f :: fs, .cons ((hy S f).2 hf) h1, .cons (h.same x f ((hy S f).2 hf)) h2⟩

theorem forall₂_left {A B : Type} {R : A → B → Prop} {P : A → Prop} {l : List A} {l' : List B} (h : List.Forall₂ R l l')
    (hp : ∀ a b, R a b → P a) : ∀ a ∈ l, P a := by
  induction h with
  | nil => simp
  | cons h _ ih => intro a ha; rcases List.mem_cons.1 ha with rfl | ha; exacts [hp _ _ h, ih a ha]

theorem forall₂_right {A B : Type} {R : A → B → Prop} {P : B → Prop} {l : List A} {l' : List B} (h : List.Forall₂ R l l')
    (hp : ∀ a b, R a b → P b) : ∀ b ∈ l', P b := by
  induction h with
  | nil => simp
  | cons h _ ih => intro a ha; rcases List.mem_cons.1 ha with rfl | ha; exacts [hp _ _ h, ih a ha]

theorem forall₂_right' {A B : Type} {R : A → B → Prop} {l : List A} {l' : List B} (h : List.Forall₂ R l l') :
    ∀ b ∈ l', ∃ a ∈ l, R a b := by
  induction h with
  | nil => simp
  | @cons x y _ _ h _ ih =>
    intro a ha
    rcases List.mem_cons.1 ha with rfl | ha
    · exact ⟨x, by simp, h⟩
    · obtain ⟨c, hc, hr⟩ := ih a ha
      exact ⟨c, by simp [hc], hr⟩

/-- the answer for a path, in millimetres -/
theorem getCsU_spec {S : Slerp} (hS : SlerpOk S) {csmRef timeRef : Option Int} {time t : Time}
    (ht : time.ofTime (timeRef.or csmRef) = .ok t) (hta : t.vals.Pairwise (· < ·)) (hne : t.vals ≠ []) {es : List UEdge}
    (hu : PositiveUnits es) (he : ∀ e ∈ es, e.mm.WF ∧ (e.mm.dependent = true → csmRef = none → e.mm.ref.isSome = t.abs)) :
    ∃ s, getCsU S csmRef es time timeRef = .ok s ∧ s.mm.WF ∧
      ∀ x ∈ t.vals, ∀ fs, List.Forall₂ (fun e g => TEdge.AtCsm S csmRef e x g) (es.map UEdge.mm) fs →
        ∃ f, s.mm.At S x f ∧ ∀ p, f.toParent p = along fs p := by
  obtain ⟨h1, _⟩ := C99_get_cs S csmRef hu time timeRef
  obtain ⟨s, hs, hw, _, h3⟩ := C62_get_cs hS ht hta hne (es := es.map UEdge.mm) (by
    intro e h
    obtain ⟨e, h', rfl⟩ := List.mem_map.1 h
    exact he e h')
  rw [hs] at h1
  cases hc : getCsU S csmRef es time timeRef with
  | error x => rw [hc] at h1; cases h1
  | ok c =>
    rw [hc] at h1
    have e : c.mm = s := by injection h1
    exact ⟨c, rfl, e ▸ hw, fun x hx fs hf => by rw [e]; exact h3 x hx fs hf⟩

/-- answers for related paths -/
theorem getCsU_twin {S : Slerp} (hS : SlerpOk S) {csmRef timeRef : Option Int} {time t : Time}
    (ht : time.ofTime (timeRef.or csmRef) = .ok t) (hta : t.vals.Pairwise (· < ·)) (hne : t.vals ≠ []) {es es' : List UEdge}
    (h : List.Forall₂ (LinkTwin S csmRef t.abs) es es') : ∃ s s', getCsU S csmRef es time timeRef = .ok s ∧
      getCsU S csmRef es' time timeRef = .ok s' ∧ ∀ x ∈ t.vals, ∃ f, ∀ g, (s.mm.At S x g ↔ g = f) ∧ (s'.mm.At S x g ↔ g = f) := by
  obtain ⟨s, hs, hw, h3⟩ := getCsU_spec hS ht hta hne (forall₂_left h fun _ _ h => h.pos) (forall₂_left h fun _ _ h => ⟨h.wf, h.kind⟩)
  obtain ⟨s', hs', hw', h3'⟩ := getCsU_spec hS ht hta hne (forall₂_right h fun _ _ h => h.pos')
    (forall₂_right h fun _ _ h => ⟨h.wf', h.kind'⟩)
  refine ⟨s, s', hs, hs', fun x hx => ?_⟩
  obtain ⟨fs, f1, f2⟩ := values_exist S csmRef t.abs x h
  obtain ⟨f, hf, fp⟩ := h3 x hx fs f1
  obtain ⟨f', hf', fp'⟩ := h3' x hx fs f2
  have : f' = f := Lcs.ext_toParent fun p => by rw [fp, fp']
  subst this
  exact ⟨f', fun g => ⟨⟨fun hg => At_unique hS hw hg hf, fun e => e ▸ hf⟩, ⟨fun hg => At_unique hS hw' hg hf', fun e => e ▸ hf'⟩⟩⟩

/-- links that keep their times -/
structure LinkTimes (S : Slerp) (csmRef : Option Int) (abs : Bool) (e e' : UEdge) : Prop where
  twin : LinkTwin S csmRef abs e e'
  times : e'.mm.frame.times = e.mm.frame.times
  ref : e'.mm.ref = e.mm.ref
  discrete : (∃ c, e.mm = .discrete c) ∧ ∃ c, e'.mm = .discrete c

theorem linkTimes_of {S : Slerp} {csmRef : Option Int} {abs : Bool} {u u' : ULcs} (h : u.Made) (h' : u'.Made)
    (ht : SysTwin (u.sys.scale u.unit) (u'.sys.scale u'.unit)) (hm : u.sys.dependent = true → u'.sys.dependent = true)
    (hl : LinkTwin S csmRef abs ⟨u.unit, .discrete u.sys⟩ ⟨u'.unit, .discrete u'.sys⟩) :
    LinkTimes S csmRef abs ⟨u.unit, .discrete u.sys⟩ ⟨u'.unit, .discrete u'.sys⟩ := by
  have : u'.sys.times = u.sys.times ∧ u'.sys.ref = u.sys.ref := by
    cases hd : u'.sys.dependent with
    | true => exact ht.clock (by rw [TLcs.scale_dependent]; exact hd)
    | false =>
      have hd0 : u.sys.dependent = false := by
        cases h0 : u.sys.dependent with
        | false => rfl
        | true => rw [hm h0] at hd; cases hd
      have t := h.still hd0
      have t' := h'.still hd
      exact ⟨by rw [t, t'], by rw [h.wf.ref t, h'.wf.ref t']⟩
  exact ⟨hl, this.1, this.2, ⟨_, rfl⟩, ⟨_, rfl⟩⟩

theorem timeUnion_twin {S : Slerp} {csmRef : Option Int} {abs : Bool} (ref : Option Int) {es es' : List UEdge}
    (h : List.Forall₂ (LinkTimes S csmRef abs) es es') : timeUnion ref (es'.map UEdge.mm) = timeUnion ref (es.map UEdge.mm) := by
  have : (es'.map UEdge.mm).mapM (fun e => e.frame.time) = (es.map UEdge.mm).mapM (fun e => e.frame.time) := by
    induction h with
    | nil => rfl
    | @cons e e' es es' h _ ih =>
      have fr : ∀ e : TEdge, e.frame.ref = e.ref := fun e => by cases e <;> rfl
      have : e'.mm.frame.time = e.mm.frame.time := by rw [TLcs.time, TLcs.time, h.times, fr, fr, h.ref]
      rw [List.map_cons, List.map_cons, List.mapM_cons, List.mapM_cons, this, ih]
  rw [timeUnion, timeUnion, this]

/-- answers for related paths, without a time -/
theorem getCsDefaultU_twin {S : Slerp} (hS : SlerpOk S) {csmRef minRef : Option Int} {abs : Bool} {es es' : List UEdge}
    (h : List.Forall₂ (LinkTimes S csmRef abs) es es') (hm : csmRef = none → minRef.isSome = true → abs = true) :
    ∃ s s' T, getCsDefaultU S csmRef minRef es = .ok s ∧ getCsDefaultU S csmRef minRef es' = .ok s' ∧
      (s.mm.dependent = true → s.mm.clock = T) ∧ (s'.mm.dependent = true → s'.mm.clock = T) ∧
      ∀ x, x ∈ T ∨ T = [] → ∃ f, ∀ g, (s.mm.At S x g ↔ g = f) ∧ (s'.mm.At S x g ↔ g = f) := by
  have hwf := forall₂_left h fun _ _ h => h.twin.wf
  have htw : List.Forall₂ (LinkTwin S csmRef abs) es es' := h.imp fun _ _ h => h.twin
  have hw : ∀ e ∈ es.map UEdge.mm, e.WF := fun e he => by
    obtain ⟨e, he', rfl⟩ := List.mem_map.1 he
    exact hwf e he'
  have hk : Kinds csmRef minRef (es.map UEdge.mm) := fun hc => ⟨abs, hm hc, fun e he hd => by
    obtain ⟨e, he', rfl⟩ := List.mem_map.1 he
    exact forall₂_left (P := fun e => e.mm.dependent = true → csmRef = none → e.mm.ref.isSome = abs) h (fun _ _ h => h.twin.kind) e he' hd hc⟩
  have hu := timeUnion_twin (csmRef.or minRef) h
  have mm : ∀ es : List UEdge, timeUnion (csmRef.or minRef) (es.map UEdge.mag) = timeUnion (csmRef.or minRef) (es.map UEdge.mm) :=
    fun es => (timeUnion_mm _ es).symm
  rcases timeUnion_spec hw hk with ⟨h1, h2⟩ | ⟨u, h1, u1, u2, u3, u4, u5, u6⟩
  · -- no times: all systems are static
    have stat : ∀ (es : List UEdge), (∀ e ∈ es, 0 < e.unit ∧ e.mm.WF ∧ e.mm.frame.times = none ∧ ∃ c, e.mm = .discrete c) →
        ∃ s, getCsDefaultU S csmRef minRef es = .ok s ∧ s.mm.dependent = false ∧
          ∀ x fs, List.Forall₂ (fun e g => TEdge.AtCsm S csmRef e x g) (es.map UEdge.mm) fs →
            ∃ f, s.mm.At S x f ∧ ∀ p, f.toParent p = along fs p := by
      intro es he
      obtain ⟨cs, hcs, hall⟩ : ∃ cs : List TLcs, es.map UEdge.mm = cs.map .discrete ∧ ∀ c ∈ cs, c.WF ∧ c.times = none := by
        clear h1 h2 hu mm hw hk htw hwf h
        induction es with
        | nil => exact ⟨[], rfl, by simp⟩
        | cons e es ih =>
          obtain ⟨cs, i1, i2⟩ := ih fun e' h' => he e' (by simp [h'])
          obtain ⟨_, h2, h3, c, hc⟩ := he e (by simp)
          refine ⟨c :: cs, by rw [List.map_cons, List.map_cons, i1, hc], ?_⟩
          intro c' hc'
          rcases List.mem_cons.1 hc' with rfl | hc'
          · rw [hc] at h2 h3
            exact ⟨h2.1, h3⟩
          · exact i2 c' hc'
      obtain ⟨s, hs, hd, hat⟩ := C62_static (S := S) (csmRef := csmRef) (minRef := minRef) hall
      have := (C99_get_cs_default S csmRef minRef (es := es) (fun e h' => (he e h').1) fun _ e h' => by
        obtain ⟨_, _, _, c, hc⟩ := he e h'
        obtain ⟨v, mg⟩ := e
        cases mg with
        | discrete c => exact ⟨c, rfl⟩
        | expression _ _ => cases hc).1
      rw [hcs, hs] at this
      cases hc : getCsDefaultU S csmRef minRef es with
      | error x => rw [hc] at this; cases this
      | ok c =>
        rw [hc] at this
        have e : c.mm = s := by injection this
        refine ⟨c, rfl, e ▸ hd, fun x fs hf => ?_⟩
        rw [e]
        refine hat x fs ?_
        rw [hcs, List.forall₂_map_left_iff] at hf
        have key : ∀ (cs : List TLcs) fs, (∀ c ∈ cs, c.WF ∧ c.times = none) →
            List.Forall₂ (fun c g => TEdge.AtCsm S csmRef (.discrete c) x g) cs fs → List.Forall₂ (fun e g => TLcs.At S e x g) cs fs := by
          intro cs fs hall hf
          induction hf with
          | nil => exact .nil
          | @cons c f cs fs hcf _ ih =>
            refine .cons ?_ (ih fun c hc => hall c (by simp [hc]))
            obtain ⟨y, hy, _⟩ := TEdge.csm_cases csmRef (.discrete c) x
            have hat := (hy S f).1 hcf
            have hd : c.dependent = false := by
              by_contra hd
              exact TLcs.times_some (hall c (by simp)).1 (by simpa using hd) (hall c (by simp)).2
            obtain ⟨g, _, _, g2⟩ := TLcs.At_static (S := S) hd
            exact (g2 x f).2 ((g2 y f).1 hat)
        exact key cs fs hall hf
    obtain ⟨s, hs, hd, hat⟩ := stat es (fun e he => ⟨forall₂_left h (fun _ _ h => h.twin.pos) e he, hwf e he,
      h2 _ (List.mem_map_of_mem he), forall₂_left h (fun _ _ h => h.discrete.1) e he⟩)
    obtain ⟨s', hs', hd', hat'⟩ := stat es' (fun e he => ⟨forall₂_right h (fun _ _ h => h.twin.pos') e he,
      forall₂_right h (fun _ _ h => h.twin.wf') e he, by
        have := forall₂_right' h e he
        obtain ⟨e0, he0, h0⟩ := this
        rw [h0.times]
        exact h2 _ (List.mem_map_of_mem he0), forall₂_right h (fun _ _ h => h.discrete.2) e he⟩)
    refine ⟨s, s', [], hs, hs', (fun h => by rw [hd] at h; cases h), (fun h => by rw [hd'] at h; cases h), fun x _ => ?_⟩
    obtain ⟨fs, f1, f2⟩ := values_exist S csmRef abs x htw
    obtain ⟨f, hf, fp⟩ := hat x fs f1
    obtain ⟨f', hf', fp'⟩ := hat' x fs f2
    have : f' = f := Lcs.ext_toParent fun p => by rw [fp, fp']
    subst this
    obtain ⟨g, _, _, g2⟩ := TLcs.At_static (S := S) hd
    obtain ⟨g', _, _, g2'⟩ := TLcs.At_static (S := S) hd'
    exact ⟨f', fun k => ⟨by rw [g2, (g2 _ _).1 hf], by rw [g2', (g2' _ _).1 hf']⟩⟩
  · have hof : u.ofTime (none.or csmRef) = .ok ⟨u.abs, u.vals, (none.or csmRef).or u.ref⟩ := by
      refine TEdge.ofTime_again _ u1 fun h => ?_
      rw [u3]
      cases hc : csmRef with
      | none => rfl
      | some r => rw [u4 (by rw [hc]; rfl)] at h; cases h
    have htw' : List.Forall₂ (LinkTwin S csmRef u.abs) es es' := by
      have : ∀ e ∈ es, e.mm.dependent = true → csmRef = none → e.mm.ref.isSome = u.abs := fun e he => u5 _ (List.mem_map_of_mem he)
      clear u5 u6 h1 hu mm hk hw hwf htw
      induction h with
      | nil => exact .nil
      | @cons e e' es es' h _ ih =>
        refine .cons ⟨h.twin.pos, h.twin.pos', h.twin.wf, h.twin.wf', this e (by simp), fun hd hr => ?_, h.twin.same⟩
          (ih fun e he => this e (by simp [he]))
        have k := h.twin.kind' hd hr
        rw [h.ref]
        refine this e (by simp) ?_ hr
        obtain ⟨c, hc⟩ := h.discrete.1
        obtain ⟨c', hc'⟩ := h.discrete.2
        have t := h.times
        have w := h.twin.wf
        have w' := h.twin.wf'
        rw [hc, hc'] at t
        rw [hc] at w ⊢
        rw [hc'] at w' hd
        obtain ⟨l, hl, _⟩ := w'.1.series hd
        by_contra hn
        have : c.times = none := w.2 (by simpa [TEdge.dependent] using hn)
        have t : c'.times = c.times := t
        rw [this, hl] at t
        cases t
    have sp := fun (es : List UEdge) hp he => getCsU_spec (es := es) hS hof u1 u2 hp he
    obtain ⟨s, s', hs, hs', hv⟩ := getCsU_twin hS hof u1 u2 htw'
    have clk : ∀ (es : List UEdge) (s : UTLcs), PositiveUnits es →
        (∀ e ∈ es, e.mm.WF ∧ (e.mm.dependent = true → csmRef = none → e.mm.ref.isSome = u.abs)) →
        getCsU S csmRef es u none = .ok s → s.mm.dependent = true → s.mm.clock = u.vals := by
      intro es s hp he hs hd
      obtain ⟨k1, _⟩ := C99_get_cs S csmRef hp u none
      obtain ⟨s2, hs2, _, hc, _⟩ := C62_get_cs hS hof u1 u2 (es := es.map UEdge.mm) (by
        intro e h
        obtain ⟨e, h', rfl⟩ := List.mem_map.1 h
        exact he e h')
      rw [hs2, hs] at k1
      have e : s.mm = s2 := by injection k1
      rw [e] at hd ⊢
      exact hc hd
    refine ⟨s, s', u.vals, ?_, ?_, clk es s (forall₂_left htw' fun _ _ h => h.pos) (forall₂_left htw' fun _ _ h => ⟨h.wf, h.kind⟩) hs,
      clk es' s' (forall₂_right htw' fun _ _ h => h.pos') (forall₂_right htw' fun _ _ h => ⟨h.wf', h.kind'⟩) hs', fun x hx => ?_⟩
    · simp only [getCsDefaultU, mm, h1, bind, Except.bind, hs]
    · simp only [getCsDefaultU, mm, hu, h1, bind, Except.bind, hs']
    · rcases hx with hx | hx
      · exact hv x hx
      · exact absurd hx u2

namespace Csm
variable {N D : Type} [DecidableEq N]

theorem storedLink_twin {S : Slerp} (hS1 : ∀ w, S 1 1 w = 1) {m m' : Csm N ULcs D} (I : Inv m)
    (hs : SameUpToRoot (m.rewritten ULcs.clean) m') {abs : Bool}
    (hu : ∀ a b u, m.Supplied a b u → u.Made ∧ u.Clear ∧ (u.sys.dependent = true → m.refTime = none → u.sys.ref.isSome = abs))
    {a b : N} (h : m.Adj a b) : ∃ e e', m.storedLink a b = some e ∧ m'.storedLink a b = some e' ∧ LinkTwin S m.refTime abs e e' := by
  obtain ⟨e, he⟩ := Dict.mem_keys_iff.1 h
  obtain ⟨u, h' | h'⟩ := rewritten_paired ULcs.clean m I a b e he
  · obtain ⟨rfl, h1, _, _⟩ := h'
    obtain ⟨m1, m2, m3⟩ := hu a b u he
    refine ⟨_, _, ?_, ?_, linkTwin_of hS1 m1 (clean_made S m1) (clean_twin m2) m3⟩
    · simp only [storedLink, edge?, Dict.get?_of_mem I.edgesNodup he]
    · simp only [storedLink, edge?, Dict.get?_of_mem hs.edgesNodup ((hs.edges _).2 h1)]
  · obtain ⟨rfl, _, h1, h2⟩ := h'
    obtain ⟨m1, m2, m3⟩ := hu b a u h2
    refine ⟨_, _, ?_, ?_, linkTwin_of hS1 (invert_made m1) (invert_made (clean_made S m1)) ?_ fun hd hr => m3 (by rw [← TLcs.invert_dep]; exact hd) hr⟩
    · simp only [storedLink, edge?, Dict.get?_of_mem I.edgesNodup he]
      rfl
    · simp only [storedLink, edge?, Dict.get?_of_mem hs.edgesNodup ((hs.edges _).2 h1)]
      rfl
    · show SysTwin (u.sys.invert.scale u.unit) (u.clean.sys.invert.scale u.clean.unit)
      rw [← TLcs.invert_scale, ← TLcs.invert_scale]
      exact (clean_twin m2).invert (m1.wf.scale _)

theorem pathLinks_twin {S : Slerp} (hS1 : ∀ w, S 1 1 w = 1) {m m' : Csm N ULcs D} (I : Inv m)
    (hs : SameUpToRoot (m.rewritten ULcs.clean) m') {abs : Bool}
    (hu : ∀ a b u, m.Supplied a b u → u.Made ∧ u.Clear ∧ (u.sys.dependent = true → m.refTime = none → u.sys.ref.isSome = abs))
    {a b : N} {p : List N} (h : Walk m.Adj a b p) :
    ∃ es es', m.pathLinks p = some es ∧ m'.pathLinks p = some es' ∧ List.Forall₂ (LinkTwin S m.refTime abs) es es' := by
  induction h with
  | nil a => exact ⟨[], [], rfl, rfl, .nil⟩
  | @cons a c b p hac hw ih =>
    obtain ⟨es, es', h1, h2, h3⟩ := ih
    obtain ⟨e, e', k1, k2, k3⟩ := storedLink_twin hS1 I hs hu hac
    obtain ⟨q, rfl⟩ := hw.head_eq
    refine ⟨e :: es, e' :: es', ?_, ?_, .cons k3 h3⟩
    · simp only [pathLinks, k1, h1]
    · simp only [pathLinks, k2, h2]

theorem searchPath_subs {m : Csm N ULcs D} (l) (b : N) : ∀ k ps, ({ m with subs := l } : Csm N ULcs D).searchPath b k ps = m.searchPath b k ps
  | 0, _ => rfl
  | k + 1, ps => by
    simp only [searchPath]
    cases ps.find? (fun p => p.head? = some b) with
    | some p => rfl
    | none => exact searchPath_subs l b k _

/-- the search for a path does not use the records of subsystems -/
theorem read_path {m m' : Csm N ULcs D} (I : Inv m) (h5 : SameUpToRoot (m.rewritten ULcs.clean) m') (h6 : m.names.head? = some m'.root)
    {a b : N} (ha : a ∈ m'.names) (hb : b ∈ m'.names) {p : List N} (hp : SimplePath m'.Adj a b p) : m'.shortestPath a b = some p := by
  have J := rewritten_inv ULcs.clean m I
  have K : Inv ({ m.rewritten ULcs.clean with subs := [] } : Csm N ULcs D) :=
    ⟨J.nodesNodup, J.edgesNodup, J.root_mem, J.tree, J.paired, J.dataNodup, fun s hs => by cases hs⟩
  have L : SameUpToRoot ({ m.rewritten ULcs.clean with subs := [] } : Csm N ULcs D) { m' with subs := [] } :=
    ⟨h5.name, h5.refTime, rfl, h5.nodesNodup, h5.edgesNodup, h5.nodes, h5.edges⟩
  have I' : Inv ({ m' with subs := [] } : Csm N ULcs D) :=
    L.inv K (List.mem_of_mem_head? (l := m.names) h6) fun s hs => by cases hs
  have := (shortestPath_iff I' ha hb).2 hp
  rw [← this]
  unfold shortestPath
  split_ifs with h1 h2 h3
  · exact (searchPath_subs _ _ _ _).symm
  · exact absurd h1 h2
  · exact absurd h3 h1
  · rfl

/-- **C101.** A manager is written to a file and read again. If no position is nonzero but below the tolerance of the format and
no orientation is different from the identity but within the tolerance, all queries for given times have the same values before
and after, measured in millimetres: from and to any system of the manager, at all requested times. -/
theorem C101_query {S : Slerp} (hS : SlerpOk S) (hS1 : ∀ w, S 1 1 w = 1) {m : Csm N ULcs D} (h : Reachable m)
    (h2 : 2 ≤ m.names.length) (hu : ∀ a b u, m.Supplied a b u → u.Made ∧ u.Clear) :
    ∃ d m', writeFile ULcs.write m = .ok d ∧ readFile (LcsTree.read S) d = .ok m' ∧
      ∀ a ∈ m.names, ∀ b ∈ m.names, ∀ time timeRef t, time.ofTime (timeRef.or m.refTime) = .ok t → t.vals.Pairwise (· < ·) →
        t.vals ≠ [] → (∀ c d u, m.Supplied c d u → u.sys.dependent = true → m.refTime = none → u.sys.ref.isSome = t.abs) →
        ∃ s s', m.queryAt S a b time timeRef = .ok s ∧ m'.queryAt S a b time timeRef = .ok s' ∧
          ∀ x ∈ t.vals, ∃ f, ∀ g, (s.mm.At S x g ↔ g = f) ∧ (s'.mm.At S x g ↔ g = f) := by
  obtain ⟨d, m', h3, h4, h5, h6⟩ := C101_structure (w := ULcs.write) (r := LcsTree.read S) (g := ULcs.clean) h h2
    fun a b u hs => ⟨C72_read (hu a b u hs).1.wf, rfl⟩
  have I := h.inv
  refine ⟨d, m', h3, h4, fun a ha b hb time timeRef t ht hta hne hk => ?_⟩
  have href : m'.refTime = m.refTime := h5.refTime
  have hadj : ∀ x y, m'.Adj x y ↔ m.Adj x y := fun x y => (h5.adj x y).trans (rewritten_adj _ m x y)
  have ha' : a ∈ m'.names := (h5.names a).2 ha
  have hb' : b ∈ m'.names := (h5.names b).2 hb
  have hh : ∀ (k : Csm N ULcs D), a ∈ k.names → b ∈ k.names → ¬(¬ k.has a = true ∨ ¬ k.has b = true) := fun k ha hb => by
    simp [Csm.has, ha, hb]
  unfold queryAt
  rw [if_neg (hh m ha hb), if_neg (hh m' ha' hb')]
  by_cases hab : a = b
  · rw [if_pos hab, if_pos hab]
    obtain ⟨f, _, _, hf⟩ := TLcs.At_static (S := S) (c := UTLcs.default.mm) rfl
    exact ⟨_, _, rfl, rfl, fun x _ => ⟨f, fun g => ⟨hf x g, hf x g⟩⟩⟩
  · rw [if_neg hab, if_neg hab]
    obtain ⟨p, hp⟩ := I.tree.exists_path a b ha hb
    have hp' : SimplePath m'.Adj a b p := by
      have : m'.Adj = m.Adj := funext fun x => funext fun y => propext (hadj x y)
      rw [this]; exact hp
    obtain ⟨es, es', e1, e2, e3⟩ := pathLinks_twin (S := S) hS1 I h5 (abs := t.abs)
      (fun c d u hs => ⟨(hu c d u hs).1, (hu c d u hs).2, hk c d u hs⟩) hp.1
    obtain ⟨s, s', s1, s2, s3⟩ := getCsU_twin hS ht hta hne e3
    refine ⟨s, s', ?_, ?_, s3⟩
    · rw [(shortestPath_iff I ha hb).2 hp]
      simp only [e1, s1]
    · rw [read_path I h5 h6 ha' hb' hp']
      simp only [e2, href, s2]

/-! ### queries without a time -/

theorem storedLink_times {S : Slerp} (hS1 : ∀ w, S 1 1 w = 1) {m m' : Csm N ULcs D} (I : Inv m)
    (hs : SameUpToRoot (m.rewritten ULcs.clean) m') {abs : Bool}
    (hu : ∀ a b u, m.Supplied a b u → u.Made ∧ u.Clear ∧ u.Moves ∧
      (u.sys.dependent = true → m.refTime = none → u.sys.ref.isSome = abs))
    {a b : N} (h : m.Adj a b) : ∃ e e', m.storedLink a b = some e ∧ m'.storedLink a b = some e' ∧ LinkTimes S m.refTime abs e e' := by
  obtain ⟨e, he⟩ := Dict.mem_keys_iff.1 h
  obtain ⟨u, h' | h'⟩ := rewritten_paired ULcs.clean m I a b e he
  · obtain ⟨rfl, h1, _, _⟩ := h'
    obtain ⟨m1, m2, m3, m4⟩ := hu a b u he
    refine ⟨_, _, ?_, ?_, linkTimes_of m1 (clean_made S m1) (clean_twin m2) m3 (linkTwin_of hS1 m1 (clean_made S m1) (clean_twin m2) m4)⟩
    · simp only [storedLink, edge?, Dict.get?_of_mem I.edgesNodup he]
    · simp only [storedLink, edge?, Dict.get?_of_mem hs.edgesNodup ((hs.edges _).2 h1)]
  · obtain ⟨rfl, _, h1, h2⟩ := h'
    obtain ⟨m1, m2, m3, m4⟩ := hu b a u h2
    have tw : SysTwin (u.sys.invert.scale u.unit) (u.clean.sys.invert.scale u.clean.unit) := by
      rw [← TLcs.invert_scale, ← TLcs.invert_scale]
      exact (clean_twin m2).invert (m1.wf.scale _)
    refine ⟨_, _, ?_, ?_, linkTimes_of (u := ⟨u.sys.invert, u.unit⟩) (u' := ⟨u.clean.sys.invert, u.clean.unit⟩)
      (invert_made m1) (invert_made (clean_made S m1)) tw (fun hd => ?_)
      (linkTwin_of (u := ⟨u.sys.invert, u.unit⟩) (u' := ⟨u.clean.sys.invert, u.clean.unit⟩) hS1 (invert_made m1)
        (invert_made (clean_made S m1)) tw fun hd hr => m4 (by rw [← TLcs.invert_dep]; exact hd) hr)⟩
    · simp only [storedLink, edge?, Dict.get?_of_mem I.edgesNodup he]
      rfl
    · simp only [storedLink, edge?, Dict.get?_of_mem hs.edgesNodup ((hs.edges _).2 h1)]
      rfl
    · show u.clean.sys.invert.dependent = true
      rw [TLcs.invert_dep]
      exact m3 (by rw [← TLcs.invert_dep]; exact hd)

theorem pathLinks_times {S : Slerp} (hS1 : ∀ w, S 1 1 w = 1) {m m' : Csm N ULcs D} (I : Inv m)
    (hs : SameUpToRoot (m.rewritten ULcs.clean) m') {abs : Bool}
    (hu : ∀ a b u, m.Supplied a b u → u.Made ∧ u.Clear ∧ u.Moves ∧
      (u.sys.dependent = true → m.refTime = none → u.sys.ref.isSome = abs))
    {a b : N} {p : List N} (h : Walk m.Adj a b p) :
    ∃ es es', m.pathLinks p = some es ∧ m'.pathLinks p = some es' ∧ List.Forall₂ (LinkTimes S m.refTime abs) es es' := by
  induction h with
  | nil a => exact ⟨[], [], rfl, rfl, .nil⟩
  | @cons a c b p hac hw ih =>
    obtain ⟨es, es', h1, h2, h3⟩ := ih
    obtain ⟨e, e', k1, k2, k3⟩ := storedLink_times hS1 I hs hu hac
    obtain ⟨q, rfl⟩ := hw.head_eq
    refine ⟨e :: es, e' :: es', ?_, ?_, .cons k3 h3⟩
    · simp only [pathLinks, k1, h1]
    · simp only [pathLinks, k2, h2]

theorem min?_congr {l l' : List Int} (h : ∀ x, x ∈ l ↔ x ∈ l') : l.min? = l'.min? := by
  cases hl : l'.min? with
  | none =>
    rw [List.min?_eq_none_iff] at hl ⊢
    subst hl
    exact List.eq_nil_iff_forall_not_mem.2 fun x hx => by simpa using (h x).1 hx
  | some a =>
    rw [List.min?_eq_some_iff] at hl ⊢
    exact ⟨(h a).2 hl.1, fun b hb => hl.2 b ((h b).1 hb)⟩

theorem mem_refs {m : Csm N ULcs D} {x : Int} : x ∈ m.lcsTimeDependent.filterMap LcsLike.refTime ↔
    ∃ a b u, m.Supplied a b u ∧ u.sys.dependent = true ∧ u.sys.ref = some x := by
  simp only [lcsTimeDependent, lcs, List.mem_filterMap, List.mem_filter]
  constructor
  · rintro ⟨u, ⟨⟨⟨⟨a, b⟩, d, t⟩, h1, h2⟩, h3⟩, h4⟩
    cases d with
    | false => simp at h2
    | true =>
      simp only [if_true] at h2
      subst h2
      exact ⟨a, b, u, h1, h3, h4⟩
  · rintro ⟨a, b, u, h1, h2, h3⟩
    exact ⟨u, ⟨⟨_, h1, rfl⟩, h2⟩, h3⟩

theorem earliestRef_read {m m' : Csm N ULcs D} (I : Inv m) (hs : SameUpToRoot (m.rewritten ULcs.clean) m')
    (hu : ∀ a b u, m.Supplied a b u → u.Clear ∧ u.Moves) : m'.earliestRef = m.earliestRef := by
  have J := rewritten_inv ULcs.clean m I
  refine min?_congr fun x => ?_
  rw [mem_refs, mem_refs]
  have key : ∀ {u : ULcs}, u.Clear → u.clean.sys.dependent = true → u.sys.dependent = true ∧ u.clean.sys.ref = u.sys.ref := by
    intro u hc hd
    have tw := clean_twin hc
    have hd' : (u.clean.sys.scale u.clean.unit).dependent = true := by rw [TLcs.scale_dependent]; exact hd
    exact ⟨by rw [← TLcs.scale_dependent u.unit]; exact tw.dependent hd', (tw.clock hd').2⟩
  constructor
  · rintro ⟨a, b, u', h1, h2, h3⟩
    have h1 := (hs.edges _).1 h1
    have hk : (a, b) ∈ Dict.keys m.edges := by rw [← rewritten_keys ULcs.clean]; exact Dict.mem_keys_of_mem h1
    obtain ⟨e0, h0⟩ := Dict.mem_keys_iff.1 hk
    obtain ⟨u, h' | h'⟩ := rewritten_paired ULcs.clean m I a b e0 h0
    · have := (Dict.get?_of_mem J.edgesNodup h1).symm.trans (Dict.get?_of_mem J.edgesNodup h'.2.1)
      have e : u' = u.clean := by simpa using this
      subst e
      rw [h'.1] at h0
      obtain ⟨k1, k2⟩ := key (hu a b u h0).1 h2
      exact ⟨a, b, u, h0, k1, by rw [← k2]; exact h3⟩
    · have := (Dict.get?_of_mem J.edgesNodup h1).symm.trans (Dict.get?_of_mem J.edgesNodup h'.2.2.1)
      simp at this
  · rintro ⟨a, b, u, h1, h2, h3⟩
    obtain ⟨u', h' | h'⟩ := rewritten_paired ULcs.clean m I a b _ h1
    · have e : u = u' := by have := h'.1; simpa using this
      subst e
      obtain ⟨k1, k2⟩ := key (hu a b u h1).1 ((hu a b u h1).2 h2)
      exact ⟨a, b, u.clean, (hs.edges _).2 h'.2.1, (hu a b u h1).2 h2, by rw [k2]; exact h3⟩
    · have := h'.1; simp at this

/-- **C101.** Also queries without a time give the same before and after, if no system of the manager has only constant components
that are the identity or zero: they have the same times, and the same values at these times. -/
theorem C101_default_partial {S : Slerp} (hS : SlerpOk S) (hS1 : ∀ w, S 1 1 w = 1) {m : Csm N ULcs D} (h : Reachable m)
    (h2 : 2 ≤ m.names.length) (hu : ∀ a b u, m.Supplied a b u → u.Made ∧ u.Clear ∧ u.Moves)
    {abs : Bool} (hk : ∀ a b u, m.Supplied a b u → u.sys.dependent = true → m.refTime = none → u.sys.ref.isSome = abs) :
    ∃ d m', writeFile ULcs.write m = .ok d ∧ readFile (LcsTree.read S) d = .ok m' ∧ ∀ a ∈ m.names, ∀ b ∈ m.names,
        ∃ s s' T, m.queryDefault S a b = .ok s ∧ m'.queryDefault S a b = .ok s' ∧
          (s.mm.dependent = true → s.mm.clock = T) ∧ (s'.mm.dependent = true → s'.mm.clock = T) ∧
          ∀ x, x ∈ T ∨ T = [] → ∃ f, ∀ g, (s.mm.At S x g ↔ g = f) ∧ (s'.mm.At S x g ↔ g = f) := by
  obtain ⟨d, m', h3, h4, h5, h6⟩ := C101_structure (w := ULcs.write) (r := LcsTree.read S) (g := ULcs.clean) h h2
    fun a b u hs => ⟨C72_read (hu a b u hs).1.wf, rfl⟩
  have I := h.inv
  refine ⟨d, m', h3, h4, fun a ha b hb => ?_⟩
  have href : m'.refTime = m.refTime := h5.refTime
  have hmin := earliestRef_read I h5 fun a b u hs => (hu a b u hs).2
  have hadj : ∀ x y, m'.Adj x y ↔ m.Adj x y := fun x y => (h5.adj x y).trans (rewritten_adj _ m x y)
  have ha' : a ∈ m'.names := (h5.names a).2 ha
  have hb' : b ∈ m'.names := (h5.names b).2 hb
  have hh : ∀ (k : Csm N ULcs D), a ∈ k.names → b ∈ k.names → ¬(¬ k.has a = true ∨ ¬ k.has b = true) := fun k ha hb => by
    simp [Csm.has, ha, hb]
  unfold queryDefault
  rw [if_neg (hh m ha hb), if_neg (hh m' ha' hb')]
  by_cases hab : a = b
  · rw [if_pos hab, if_pos hab]
    refine ⟨_, _, [], rfl, rfl, (fun h => by cases h), (fun h => by cases h), fun x _ => ?_⟩
    obtain ⟨f, _, _, hf⟩ := TLcs.At_static (S := S) (c := UTLcs.default.mm) rfl
    exact ⟨f, fun g => ⟨hf x g, hf x g⟩⟩
  · rw [if_neg hab, if_neg hab]
    obtain ⟨p, hp⟩ := I.tree.exists_path a b ha hb
    have hp' : SimplePath m'.Adj a b p := by
      have : m'.Adj = m.Adj := funext fun x => funext fun y => propext (hadj x y)
      rw [this]; exact hp
    obtain ⟨es, es', e1, e2, e3⟩ := pathLinks_times (S := S) hS1 I h5 (abs := abs)
      (fun c d u hs => ⟨(hu c d u hs).1, (hu c d u hs).2.1, (hu c d u hs).2.2, hk c d u hs⟩) hp.1
    obtain ⟨s, s', T, s1, s2, s3⟩ := getCsDefaultU_twin (minRef := m.earliestRef) hS e3 (fun hr hm => by
      obtain ⟨x, hx⟩ := Option.isSome_iff_exists.1 hm
      obtain ⟨c, d, u, k1, k2, k3⟩ := mem_refs.1 (List.min?_mem hx)
      rw [← hk c d u k1 k2 hr, k3]; rfl)
    refine ⟨s, s', T, ?_, ?_, s3⟩
    · rw [(shortestPath_iff I ha hb).2 hp]
      simp only [e1, s1]
    · rw [read_path I h5 h6 ha' hb' hp']
      simp only [e2, href, hmin, s2]

/-- **C101.** Both managers reject the same names. -/
theorem C101_unknown {S : Slerp} {m : Csm N ULcs D} (h : Reachable m) (h2 : 2 ≤ m.names.length)
    (hu : ∀ a b u, m.Supplied a b u → u.Made) : ∃ d m', writeFile ULcs.write m = .ok d ∧ readFile (LcsTree.read S) d = .ok m' ∧
      ∀ a b, a ∉ m.names ∨ b ∉ m.names → ∀ time timeRef, m.queryAt S a b time timeRef = .error (.inl .valueError) ∧
        m'.queryAt S a b time timeRef = .error (.inl .valueError) := by
  obtain ⟨d, m', h3, h4, h5, _⟩ := C101_structure (w := ULcs.write) (r := LcsTree.read S) (g := ULcs.clean) h h2
    fun a b u hs => ⟨C72_read (hu a b u hs).wf, rfl⟩
  refine ⟨d, m', h3, h4, fun a b hab time timeRef => ⟨if_pos ?_, if_pos ?_⟩⟩
  · simpa [Csm.has] using hab
  · have := fun n => (h5.names n)
    have e : (m.rewritten ULcs.clean).names = m.names := rfl
    simp only [Csm.has, this, e]
    simpa using hab

/-- **C101** for the interpolation of scipy -/
theorem C101_scipy {L : Mat3 ℝ → Vec3 ℝ} (hL : Turn.RotvecOk L) : SlerpOk (Turn.slerp L) ∧ ∀ w, Turn.slerp L 1 1 w = 1 :=
  ⟨Turn.C96_slerp_ok hL, fun w => Turn.C96_same hL Rotation.one w⟩

end Csm

/-! ### examples and counterexamples -/

namespace FileDemo

/-- a robot in centimetres that moves -/
noncomputable def robot : ULcs := ⟨⟨some [0, 10], none, .static 1, .series [![0, 0, 0], ![0, 5, 0]]⟩, 10⟩
/-- a torch in metres that is fixed to the robot -/
noncomputable def torch : ULcs := ⟨⟨none, none, .static 1, .static ![0, 0, 2]⟩, 1000⟩

/-- the torch (2) at the robot (1) in the hall (0) -/
noncomputable def cell : Csm ℕ ULcs Unit := (addCs 2 1 torch true true (addCs 1 0 robot true true (init 0 100 none)).state).state

theorem cell_edges : cell.edges = [((1, 0), ⟨true, some robot⟩), ((0, 1), ⟨false, reverseOf robot⟩), ((2, 1), ⟨true, some torch⟩),
    ((1, 2), ⟨false, reverseOf torch⟩)] := rfl

theorem made_static {v : Vec3 ℝ} {k : ℝ} (hk : 0 < k) : (⟨⟨none, none, .static 1, .static v⟩, k⟩ : ULcs).Made :=
  ⟨⟨(fun h => by cases h), (fun _ => .inl rfl), (fun _ => rfl), Rotation.one⟩, (fun _ => rfl), hk⟩

theorem made_series {v w : Vec3 ℝ} {k : ℝ} (hk : 0 < k) : (⟨⟨some [0, 10], none, .static 1, .series [v, w]⟩, k⟩ : ULcs).Made :=
  ⟨⟨(fun _ => ⟨[0, 10], rfl, by simp, by simp, trivial, rfl⟩), (fun h => by cases h), (fun h => by cases h), Rotation.one⟩,
    (fun h => by cases h), hk⟩

theorem robot_far : ¬ unityTranslation robot.sys.coord := fun h => by
  have := h ![0, 5, 0] (by simp) 1
  norm_num [closeTo] at this

theorem torch_far : ¬ unityTranslation torch.sys.coord := fun h => by
  have h : closeTo ((![0, 0, 2] : Vec3 ℝ) 2) 0 := h 2
  rw [show (![0, 0, 2] : Vec3 ℝ) 2 = 2 from rfl] at h
  norm_num [closeTo] at h

/-- the hypotheses of `C101_query` and `C101_default_partial` -/
example : Reachable cell ∧ 2 ≤ cell.names.length ∧ (∀ a b u, cell.Supplied a b u → u.Made ∧ u.Clear ∧ u.Moves) ∧
    ∀ a b u, cell.Supplied a b u → u.sys.dependent = true → cell.refTime = none → u.sys.ref.isSome = false := by
  classical
  have sup : ∀ a b u, cell.Supplied a b u → u = robot ∨ u = torch := by
    intro a b u h
    unfold Supplied at h
    rw [cell_edges] at h
    simp only [List.mem_cons, Prod.mk.injEq, Edge.mk.injEq, List.not_mem_nil, or_false, Option.some.injEq] at h
    rcases h with h | h | h | h
    · exact .inl h.2.2
    · cases h.2.1
    · exact .inr h.2.2
    · cases h.2.1
  refine ⟨.addCs _ _ _ _ _ (.addCs _ _ _ _ _ (.init _ _ _)), le_of_eq_of_le rfl (show 2 ≤ 3 by decide), fun a b u h => ?_, fun a b u h _ _ => ?_⟩
  · rcases sup a b u h with rfl | rfl
    · refine ⟨made_series (by norm_num), ⟨fun _ => rfl, fun h => absurd h robot_far⟩, fun _ => ?_⟩
      simp only [ULcs.clean, TLcs.clean, if_neg robot_far]
      split_ifs <;> rfl
    · exact ⟨made_static (by norm_num), ⟨fun _ => rfl, fun h => absurd h torch_far⟩, fun h => by cases h⟩
  · rcases sup a b u h with rfl | rfl <;> rfl

/-- a manager with one system below the root -/
noncomputable def pair (u : ULcs) : Csm ℕ ULcs Unit := (addCs 1 0 u true true (init 0 100 none)).state

theorem pair_edges (u : ULcs) : (pair u).edges = [((1, 0), ⟨true, some u⟩), ((0, 1), ⟨false, reverseOf u⟩)] ∧
    (pair u).names = [0, 1] ∧ (pair u).refTime = none := by
  have : addCsRejected (init 0 100 none : Csm ℕ ULcs Unit) u = false := by
    unfold addCsRejected
    simp [lcsTimeDependent, lcs, init]
  have e : pair u = (addCs 1 0 u true true (init 0 100 none)).state := rfl
  have : ∀ b, addCsRejected (init 0 100 none : Csm ℕ ULcs Unit) u = b → b = false → ((pair u).edges =
      [((1, 0), ⟨true, some u⟩), ((0, 1), ⟨false, reverseOf u⟩)] ∧ (pair u).names = [0, 1] ∧ (pair u).refTime = none) := by
    intro b hb hf
    subst hf
    rw [e]
    unfold addCs
    simp only [bind, Py.get]
    rw [hb]
    exact ⟨rfl, rfl, rfl⟩
  exact this _ rfl (by assumption)

theorem pair_supplied {u u' : ULcs} {a b : ℕ} (h : (pair u).Supplied a b u') : u' = u := by
  unfold Supplied at h
  rw [(pair_edges u).1] at h
  simp only [List.mem_cons, Prod.mk.injEq, Edge.mk.injEq, List.not_mem_nil, or_false, Option.some.injEq] at h
  rcases h with h | h
  · exact h.2.2
  · cases h.2.1

theorem pair_reachable (u : ULcs) : Reachable (pair u) := .addCs _ _ _ _ _ (.init _ _ _)

theorem pair_two (u : ULcs) : 2 ≤ (pair u).names.length := by rw [(pair_edges u).2.1]; decide

/-- the pair that is read, and the queries of both -/
theorem pair_read (S : Slerp) {u : ULcs} (h : u.Made) : ∃ d m', writeFile ULcs.write (pair u) = .ok d ∧
    readFile (LcsTree.read S) d = .ok m' ∧
    (∀ time timeRef c, getCsU S none [⟨u.unit, .discrete u.sys⟩] time timeRef = .ok c → (pair u).queryAt S 1 0 time timeRef = .ok c) ∧
    (∀ time timeRef c, getCsU S none [⟨u.clean.unit, .discrete u.clean.sys⟩] time timeRef = .ok c →
      m'.queryAt S 1 0 time timeRef = .ok c) ∧
    (∀ c, getCsDefaultU S none (pair u).earliestRef [⟨u.unit, .discrete u.sys⟩] = .ok c → (pair u).queryDefault S 1 0 = .ok c) ∧
    (∀ c, (∀ r, getCsDefaultU S none r [⟨u.clean.unit, .discrete u.clean.sys⟩] = .ok c) → m'.queryDefault S 1 0 = .ok c) := by
  obtain ⟨d, m', h3, h4, h5, h6⟩ := C101_structure (w := ULcs.write) (r := LcsTree.read S) (g := ULcs.clean) (pair_reachable u)
    (pair_two u) fun a b v hs => ⟨C72_read ((pair_supplied hs).symm ▸ h).wf, rfl⟩
  obtain ⟨p1, p2, p3⟩ := pair_edges u
  have I := (pair_reachable u).inv
  have h0 : 0 ∈ (pair u).names := by rw [p2]; simp
  have h1 : 1 ∈ (pair u).names := by rw [p2]; simp
  have hadj : (pair u).Adj 1 0 := by unfold Adj Dict.keys; rw [p1]; simp
  have hp : SimplePath (pair u).Adj 1 0 [1, 0] := ⟨.cons hadj (.nil 0), by simp⟩
  have hadj' : m'.Adj = (pair u).Adj := funext fun x => funext fun y => propext ((h5.adj x y).trans (rewritten_adj _ _ x y))
  have h0' : 0 ∈ m'.names := (h5.names 0).2 h0
  have h1' : 1 ∈ m'.names := (h5.names 1).2 h1
  have path := (shortestPath_iff I h1 h0).2 hp
  have path' := read_path I h5 h6 h1' h0' (hadj' ▸ hp)
  have e1 : ((1, 0), (⟨true, some u⟩ : Edge ULcs)) ∈ (pair u).edges := by rw [p1]; simp
  have link : (pair u).pathLinks [1, 0] = some [⟨u.unit, .discrete u.sys⟩] := by
    simp only [pathLinks, storedLink, edge?, Dict.get?_of_mem I.edgesNodup e1]
  have link' : m'.pathLinks [1, 0] = some [⟨u.clean.unit, .discrete u.clean.sys⟩] := by
    obtain ⟨v, hv | hv⟩ := rewritten_paired ULcs.clean (pair u) I 1 0 _ e1
    · have : u = v := by simpa using hv.1
      subst this
      simp only [pathLinks, storedLink, edge?, Dict.get?_of_mem h5.edgesNodup ((h5.edges _).2 hv.2.1)]
    · simpa using hv.1
  have href : m'.refTime = none := h5.refTime.trans p3
  have hh : ∀ (k : Csm ℕ ULcs Unit), 1 ∈ k.names → 0 ∈ k.names → ¬(¬ k.has 1 = true ∨ ¬ k.has 0 = true) := fun k ha hb => by
    simp [Csm.has, ha, hb]
  refine ⟨d, m', h3, h4, fun time timeRef c hc => ?_, fun time timeRef c hc => ?_, fun c hc => ?_, fun c hc => ?_⟩
  · unfold queryAt
    rw [if_neg (hh _ h1 h0), if_neg (by decide), path]
    simp only [link, p3, hc]
  · unfold queryAt
    rw [if_neg (hh _ h1' h0'), if_neg (by decide), path']
    simp only [link', href, hc]
  · unfold queryDefault
    rw [if_neg (hh _ h1 h0), if_neg (by decide), path]
    simp only [link, p3, hc]
  · unfold queryDefault
    rw [if_neg (hh _ h1' h0'), if_neg (by decide), path']
    simp only [link', href, hc]

theorem getCsU_still (S : Slerp) {u : ULcs} (h : u.sys.dependent = false) {time t : Time} {timeRef : Option Int}
    (ht : time.ofTime timeRef = .ok t) : getCsU S none [⟨u.unit, .discrete u.sys⟩] time timeRef = .ok ⟨u.unit, u.sys⟩ := by
  have : timeRef.or none = timeRef := by cases timeRef <;> rfl
  simp only [getCsU, this, ht, bind, Except.bind, UEdge.onEdge, TEdge.onEdge, h, Except.map, Bool.false_eq_true, if_false]

end FileDemo

open FileDemo

/-- **C101 fails** for the unit of the answer: a system in the origin that was given in metres comes back in millimetres. -/
theorem C101_unit_counterexample (S : Slerp) : ∃ (m : Csm ℕ ULcs Unit) (d : _) (m' : Csm ℕ ULcs Unit), Reachable m ∧ 2 ≤ m.names.length ∧
    (∀ a b u, m.Supplied a b u → u.Made ∧ u.Clear) ∧ writeFile ULcs.write m = .ok d ∧ readFile (LcsTree.read S) d = .ok m' ∧
    ∀ time timeRef t, time.ofTime timeRef = .ok t →
      ∃ s s', m.queryAt S 1 0 time timeRef = .ok s ∧ m'.queryAt S 1 0 time timeRef = .ok s' ∧ s.unit = 1000 ∧ s'.unit = 1 := by
  classical
  have hm : (⟨⟨none, none, .static 1, .static 0⟩, 1000⟩ : ULcs).Made := made_static (by norm_num)
  obtain ⟨d, m', h1, h2, h3, h4, _⟩ := pair_read S hm
  refine ⟨_, d, m', pair_reachable _, pair_two _, fun a b u hs => ?_, h1, h2, fun time timeRef t ht =>
    ⟨_, _, h3 _ _ _ (getCsU_still S rfl ht), h4 _ _ _ (getCsU_still S ?_ ht), rfl, ?_⟩⟩
  · rw [pair_supplied hs]
    exact ⟨hm, fun _ => rfl, fun _ => rfl⟩
  · simp only [ULcs.clean, TLcs.clean, if_pos unity_one, if_pos unity_zero]
    rfl
  · simp only [ULcs.clean, if_pos unity_zero]

/-- **C101 fails** without the condition on the tolerance: a distance of a millionth of a millimetre, given in metres, is lost. -/
theorem C101_tolerance_counterexample (S : Slerp) : ∃ (m : Csm ℕ ULcs Unit) (d : _) (m' : Csm ℕ ULcs Unit), Reachable m ∧ 2 ≤ m.names.length ∧
    (∀ a b u, m.Supplied a b u → u.Made) ∧ writeFile ULcs.write m = .ok d ∧ readFile (LcsTree.read S) d = .ok m' ∧
    ∀ time timeRef t, time.ofTime timeRef = .ok t →
      ∃ s s', m.queryAt S 1 0 time timeRef = .ok s ∧ m'.queryAt S 1 0 time timeRef = .ok s' ∧
        ∀ x, s.mm.At S x ⟨1, ![1 / 10 ^ 6, 0, 0]⟩ ∧ s'.mm.At S x ⟨1, 0⟩ := by
  classical
  have hm : (⟨⟨none, none, .static 1, .static ![1 / 10 ^ 9, 0, 0]⟩, 1000⟩ : ULcs).Made := made_static (by norm_num)
  have hz : unityTranslation (.static ![1 / 10 ^ 9, 0, 0]) := by
    intro i
    fin_cases i <;> norm_num [closeTo]
  obtain ⟨d, m', h1, h2, h3, h4, _⟩ := pair_read S hm
  have hcl : (⟨⟨none, none, .static 1, .static ![1 / 10 ^ 9, 0, 0]⟩, 1000⟩ : ULcs).clean = ⟨⟨none, none, .static 1, .static 0⟩, 1⟩ := by
    simp only [ULcs.clean, TLcs.clean, if_pos unity_one, if_pos hz]
    rfl
  rw [hcl] at h4
  refine ⟨_, d, m', pair_reachable _, pair_two _, fun a b u hs => ?_, h1, h2, fun time timeRef t ht =>
    ⟨_, _, h3 _ _ _ (getCsU_still S rfl ht), h4 _ _ _ (getCsU_still S (u := ⟨⟨none, none, .static 1, .static 0⟩, 1⟩) rfl ht),
      fun x => ⟨⟨.static, ?_⟩, ⟨.static, ?_⟩⟩⟩⟩
  · rw [pair_supplied hs]
    exact hm
  · have : (UTLcs.mm ⟨1000, ⟨none, none, .static 1, .static ![1 / 10 ^ 9, 0, 0]⟩⟩).coord = .static ![1 / 10 ^ 6, 0, 0] := by
      simp only [UTLcs.mm, TLcs.scale, Comp.map, Matrix.smul_cons, smul_eq_mul, Matrix.smul_empty]
      norm_num
    rw [this]
    exact .static
  · have : (UTLcs.mm ⟨1, ⟨none, none, .static 1, .static 0⟩⟩).coord = .static 0 := by simp [UTLcs.mm, TLcs.scale, Comp.map]
    rw [this]
    exact .static

/-- **C101 fails** for queries without a time if a system does not move although it has times: the times are lost. -/
theorem C101_default_counterexample (S : Slerp) : ∃ (m : Csm ℕ ULcs Unit) (d : _) (m' : Csm ℕ ULcs Unit), Reachable m ∧
    2 ≤ m.names.length ∧ (∀ a b u, m.Supplied a b u → u.Made ∧ u.Clear) ∧ writeFile ULcs.write m = .ok d ∧
    readFile (LcsTree.read S) d = .ok m' ∧ ∃ s s', m.queryDefault S 1 0 = .ok s ∧ m'.queryDefault S 1 0 = .ok s' ∧
      s.mag.times = some [0, 10] ∧ s'.mag.times = none := by
  classical
  have hm : (⟨⟨some [0, 10], none, .static 1, .series [0, 0]⟩, 1⟩ : ULcs).Made := made_series (by norm_num)
  have hz : unityTranslation (.series [0, 0]) := by
    intro v hv
    simp only [List.mem_cons, List.not_mem_nil, or_false, or_self] at hv
    subst hv
    exact unity_zero
  have hcl : (⟨⟨some [0, 10], none, .static 1, .series [0, 0]⟩, 1⟩ : ULcs).clean = ⟨⟨none, none, .static 1, .static 0⟩, 1⟩ := by
    simp only [ULcs.clean, TLcs.clean, if_pos unity_one, if_pos hz]
    rfl
  obtain ⟨d, m', h1, h2, _, _, h3, h4⟩ := pair_read S hm
  rw [hcl] at h4
  refine ⟨_, d, m', pair_reachable _, pair_two _, fun a b u hs => ?_, h1, h2, ⟨1, ⟨some [0, 10], none, .static 1, .series [0, 0]⟩⟩,
    ⟨1, ⟨none, none, .static 1, .static 0⟩⟩, h3 _ ?_, h4 _ fun r => ?_, rfl, rfl⟩
  · rw [pair_supplied hs]
    refine ⟨hm, fun _ => rfl, fun _ v hv => ?_⟩
    simpa using hv
  · have hr : (pair ⟨⟨some [0, 10], none, .static 1, .series [0, 0]⟩, 1⟩).earliestRef = none := by
      unfold earliestRef
      rw [List.min?_eq_none_iff, List.eq_nil_iff_forall_not_mem]
      intro x hx
      obtain ⟨a, b, u, k1, _, k3⟩ := mem_refs.1 hx
      rw [pair_supplied k1] at k3
      cases k3
    rw [hr]
    have hu : timeUnion (none : Option Int) [TEdge.discrete ⟨some [0, 10], none, .static 1, .series [0, 0]⟩] =
        .ok (some ⟨false, [0, 10], none⟩) := by rfl
    have ho : (⟨false, [0, 10], none⟩ : Time).ofTime none = .ok ⟨false, [0, 10], none⟩ := by rfl
    have hi : interpCoordinates [((0 : Int), (0 : Vec3 ℝ)), (10, 0)] [0, 10] = some [0, 0] := by
      have e : Ip.addEdges [((0 : Int), (0 : Vec3 ℝ)), (10, 0)] [0, 10] = [0, 10] := by
        show Time.unionVals [0, 10] [0, 10] = _
        decide +kernel
      simp only [interpCoordinates, interpLike, e, List.map_cons, List.map_nil, raw, lin]
      simp [fillAll, bfill, ffill, List.idxOf, List.findIdx, List.findIdx.go]
    have ht : (⟨some [0, 10], none, .static 1, .series [0, 0]⟩ : TLcs).time = .ok (some ⟨false, [0, 10], none⟩) := by rfl
    simp only [getCsDefaultU, Option.or, List.map_cons, List.map_nil, hu, bind, Except.bind, getCsU, ho, UEdge.onEdge, TEdge.onEdge,
      TLcs.dependent, Comp.isSeries, Bool.or_true, if_true, TEdge.onEdge.interpolated, TEdge.ref, TEdge.interp, TLcs.interpTime,
      Option.isNone, ht, TLcs.interpComp]
    simp [hi, Time.asTimedelta, Time.referenceTime, TEdge.turn, Except.map, Comp.isSeries, bind, Except.bind]
  · rfl

end Weldx
