import Verif.TimeLcs.FileQuery

/-!
# `get_cs` of a whole manager at all times (C102)

Source: `/repo/weldx/transformations/cs_manager.py` 1023-1062 (`_get_cs_on_edge`), 1064-1246 (`get_cs`).

This joins the graph of `Verif/Csm/` and the time dependent systems with units of `Verif/TimeLcs/Units.lean`: a manager whose links
are discrete systems or systems described by an expression, each with its own unit of length.

Simplifications: as in these files.
-/

set_option linter.unusedSectionVars false

namespace Weldx

open Ip Matrix Csm TLcs

/-! ### model -/

/-- the coordinates are a `TimeSeries` -/
def UEdge.isExpression (e : UEdge) : Bool := match e.mag with
  | .discrete _ => false
  | .expression _ _ => true

/-- what the manager uses of a `LocalCoordinateSystem` -/
noncomputable instance : LcsLike UEdge where
  invert e := e.reverse
  isSeries e := e.isExpression
  isTimeDependent e := e.mag.dependent
  refTime e := e.mag.ref

namespace Csm
variable {N D : Type} [DecidableEq N]

/-- the system on an edge, or the one in the other direction if there is none, `cs_manager.py` 1031-1037 -/
noncomputable def linkOn (m : Csm N UEdge D) (a b : N) : Option UEdge := match m.edge? a b with
  | some ⟨_, some e⟩ => some e
  | some ⟨_, none⟩ => match m.edge? b a with
    | some ⟨_, some e⟩ => some e.reverse
    | _ => none
  | none => none

/-- the systems on a path, `cs_manager.py` 1213-1214 -/
noncomputable def linksOn (m : Csm N UEdge D) : List N → Option (List UEdge)
  | a :: b :: rest => match m.linkOn a b, linksOn m (b :: rest) with
    | some e, some es => some (e :: es)
    | _, _ => none
  | _ => some []

/-- `get_cs`, `cs_manager.py` 1203-1246, for two systems and a given time -/
noncomputable def getAt (S : Slerp) (m : Csm N UEdge D) (a b : N) (time : Time) (timeRef : Option Int) :
    Except (CsmError ⊕ TimeError) UTLcs :=
  if ¬ m.has a ∨ ¬ m.has b then .error (.inl .valueError)
  else if a = b then .ok .default
  else match m.shortestPath a b with
    | none => .error (.inl .noPath)
    | some p => match m.linksOn p with
      | none => .error (.inl .keyError)
      | some es => match getCsU S m.refTime es time timeRef with
        | .error x => .error (.inr x)
        | .ok c => .ok c

/-- `get_cs`, `cs_manager.py` 1196-1202: without a reference system the parent is used -/
noncomputable def getAtParent (S : Slerp) (m : Csm N UEdge D) (a : N) (time : Time) (timeRef : Option Int) :
    Except (CsmError ⊕ TimeError) UTLcs := match m.getParent a with
  | .error x => .error (.inl x)
  | .ok none => .error (.inl .valueError)
  | .ok (some b) => m.getAt S a b time timeRef

/-! ### specification -/

/-- systems as the constructor creates them, in a unit of length; if the manager has no reference time, the times of the system are of
the same kind as the requested ones -/
structure Sound (refTime : Option Int) (abs : Bool) (e : UEdge) : Prop where
  wf : e.mm.WF
  unit : 0 < e.unit
  kind : e.mag.dependent = true → refTime = none → e.mag.ref.isSome = abs

/-- `F` maps the position of a point in the system `a` to its position in the system `c`, both in millimetres, at the time `x`: a chain of
relations that the user supplied, each with its value at this time, in either direction and with detours -/
inductive Chain (S : Slerp) (m : Csm N UEdge D) (x : Int) : N → N → (Vec3 ℝ → Vec3 ℝ) → Prop
  | here (a : N) : Chain S m x a a id
  | forth {a b c : N} {e : UEdge} {f : Lcs ℝ} {F : Vec3 ℝ → Vec3 ℝ} : m.Supplied a b e → e.mm.AtCsm S m.refTime x f →
      Chain S m x b c F → Chain S m x a c (fun p => F (f.toParent p))
  | back {a b c : N} {e : UEdge} {f : Lcs ℝ} {F G : Vec3 ℝ → Vec3 ℝ} : m.Supplied b a e → e.mm.AtCsm S m.refTime x f →
      (∀ p, f.toParent (G p) = p) → Chain S m x b c F → Chain S m x a c (fun p => F (G p))

/-- the chain along the direct path; against the direction of a supplied system the stored inverse is used, which has values of its own
between the times of the system -/
inductive Direct (S : Slerp) (m : Csm N UEdge D) (x : Int) : List N → (Vec3 ℝ → Vec3 ℝ) → Prop
  | here (a : N) : Direct S m x [a] id
  | forth {a b : N} {r : List N} {e : UEdge} {f : Lcs ℝ} {F : Vec3 ℝ → Vec3 ℝ} : m.Supplied a b e → e.mm.AtCsm S m.refTime x f →
      Direct S m x (b :: r) F → Direct S m x (a :: b :: r) (fun p => F (f.toParent p))
  | back {a b : N} {r : List N} {e : UEdge} {f : Lcs ℝ} {F : Vec3 ℝ → Vec3 ℝ} : m.Supplied b a e → e.mm.reverse.AtCsm S m.refTime x f →
      Direct S m x (b :: r) F → Direct S m x (a :: b :: r) (fun p => F (f.toParent p))

end Csm

/-! ### lemmas -/

theorem TEdge.At_unique {S : Slerp} (hS : SlerpOk S) {e : TEdge} (h : e.WF) {t : Int} {f g : Lcs ℝ} (hf : e.At S t f)
    (hg : e.At S t g) : f = g := by
  cases e with
  | discrete c => exact TLcs.At_unique hS h.1 hf hg
  | expression e i =>
    obtain ⟨f', h1, h2, rfl⟩ := hf
    obtain ⟨g', k1, k2, rfl⟩ := hg
    have : f' = g' := by
      refine Lcs.ext ?_ (h2.trans k2.symm)
      cases ho : e.orient with
      | static R =>
        rw [ho] at h1 k1
        cases h1
        generalize g'.orientation = w at k1
        cases k1; rfl
      | series l =>
        have hser : e.orient.isSeries = true := by rw [ho]; rfl
        exact compAt_unique hS (clock_asc (h.1 hser)) h.2.2 h1 k1
    rw [this]

theorem TEdge.AtCsm_unique {S : Slerp} (hS : SlerpOk S) {csmRef : Option Int} {e : TEdge} (h : e.WF) {t : Int} {f g : Lcs ℝ}
    (hf : e.AtCsm S csmRef t f) (hg : e.AtCsm S csmRef t g) : f = g := by
  obtain ⟨y, hy, _⟩ := TEdge.csm_cases csmRef e t
  exact TEdge.At_unique hS h ((hy S f).1 hf) ((hy S g).1 hg)

theorem TEdge.AtCsm_exists {S : Slerp} {csmRef : Option Int} {e : TEdge} (h : e.WF) (t : Int) : ∃ f, e.AtCsm S csmRef t f := by
  obtain ⟨y, hy, _⟩ := TEdge.csm_cases csmRef e t
  obtain ⟨f, hf⟩ := TEdge.At_exists S h y
  exact ⟨f, (hy S f).2 hf⟩

theorem TEdge.AtCsm_orthonormal {S : Slerp} (hS : SlerpOk S) {csmRef : Option Int} {e : TEdge} (h : e.WF) {t : Int} {f : Lcs ℝ}
    (hf : e.AtCsm S csmRef t f) : f.Orthonormal := by
  obtain ⟨y, hy, _⟩ := TEdge.csm_cases csmRef e t
  exact TEdge.Rotation.orthonormal (TEdge.At_rotation hS h ((hy S f).1 hf))

namespace Csm
variable {N D : Type} [DecidableEq N]

theorem sound_reverse {r : Option Int} {abs : Bool} {e : UEdge} (h : Sound r abs e) : Sound r abs e.reverse where
  wf := by rw [(C99_reverse e).1]; exact TEdge.reverse_wf h.wf
  unit := h.unit
  kind hd hr := by
    show e.mag.reverse.ref.isSome = abs
    rw [TEdge.reverse_ref]
    exact h.kind (by rw [← TEdge.reverse_dependent]; exact hd) hr

theorem Sound.kind_mm {r : Option Int} {abs : Bool} {e : UEdge} (h : Sound r abs e) (hd : e.mm.dependent = true) (hr : r = none) :
    e.mm.ref.isSome = abs := by
  have k := h.kind
  unfold UEdge.mm at hd ⊢
  cases hm : e.mag with
  | discrete c =>
    rw [hm] at hd k
    exact k (by
      show c.dependent = true
      rw [← TLcs.scale_dependent e.unit]; exact hd) hr
  | expression c i =>
    rw [hm] at k
    exact k rfl hr

theorem linkOn_spec {m : Csm N UEdge D} (I : Inv m) {a b : N} (h : m.Adj a b) : ∃ e, (m.Supplied a b e ∧ m.linkOn a b = some e) ∨
    (m.Supplied b a e ∧ m.linkOn a b = some e.reverse) := by
  obtain ⟨x, hx⟩ := Dict.mem_keys_iff.1 h
  obtain ⟨x', hx', hp⟩ := I.paired a b x hx
  rcases hp with ⟨e, rfl, rfl⟩ | ⟨e, rfl, rfl⟩
  · refine ⟨e, .inl ⟨hx, ?_⟩⟩
    simp only [linkOn, edge?, Dict.get?_of_mem I.edgesNodup hx]
  · refine ⟨e, .inr ⟨hx', ?_⟩⟩
    unfold linkOn edge?
    rw [Dict.get?_of_mem I.edgesNodup hx, Dict.get?_of_mem I.edgesNodup hx']
    unfold reverseOf
    cases hs : LcsLike.isSeries e <;> rfl

theorem linksOn_spec {S : Slerp} {m : Csm N UEdge D} (I : Inv m) {abs : Bool} (hu : ∀ a b e, m.Supplied a b e → Sound m.refTime abs e)
    {a b : N} {p : List N} (h : Walk m.Adj a b p) : ∃ es, m.linksOn p = some es ∧ (∀ e ∈ es, Sound m.refTime abs e) ∧
      (∀ x, ∃ fs, List.Forall₂ (fun e g => TEdge.AtCsm S m.refTime e x g) (es.map UEdge.mm) fs ∧ Direct S m x p (along fs)) ∧ ∀ x F, Direct S m x p F →
        ∃ fs, List.Forall₂ (fun e g => TEdge.AtCsm S m.refTime e x g) (es.map UEdge.mm) fs ∧ F = along fs := by
  induction h with
  | nil a =>
    refine ⟨[], rfl, by simp, fun x => ⟨[], .nil, ?_⟩, fun x F h => ?_⟩
    · have : along [] = id := rfl
      rw [this]; exact .here a
    · cases h
      exact ⟨[], .nil, rfl⟩
  | @cons a c b p hac hw ih =>
    obtain ⟨es, h1, h2, h3, h4⟩ := ih
    obtain ⟨q, rfl⟩ := hw.head_eq
    have uniq : ∀ {a b : N} {e e' : UEdge}, m.Supplied a b e → m.Supplied a b e' → e' = e := fun {a b e e'} h h' => by
      have := (Dict.get?_of_mem I.edgesNodup h').symm.trans (Dict.get?_of_mem I.edgesNodup h)
      simpa using this
    have other : ∀ {a b : N} {e e' : UEdge}, m.Supplied a b e → m.Supplied b a e' → False := fun {a b e e'} h h' => by
      obtain ⟨k, hk, hp⟩ := I.paired _ _ _ h
      have := (Dict.get?_of_mem I.edgesNodup hk).symm.trans (Dict.get?_of_mem I.edgesNodup h')
      cases this
      rcases hp with ⟨s, h1, h2⟩ | ⟨s, h1, h2⟩
      · cases h2
      · cases h2
    obtain ⟨e, ⟨he, hl⟩ | ⟨he, hl⟩⟩ := linkOn_spec I hac
    · refine ⟨e :: es, by simp only [linksOn, hl, h1], ?_, fun x => ?_, fun x F hF => ?_⟩
      · intro k hk
        rcases List.mem_cons.1 hk with rfl | hk
        · exact hu _ _ _ he
        · exact h2 k hk
      · obtain ⟨fs, g1, g2⟩ := h3 x
        obtain ⟨f, hf⟩ := TEdge.AtCsm_exists (S := S) (csmRef := m.refTime) (hu _ _ _ he).wf x
        exact ⟨f :: fs, .cons hf g1, .forth he hf g2⟩
      · cases hF with
        | forth k1 k2 k3 =>
          cases uniq he k1
          obtain ⟨fs, g1, rfl⟩ := h4 x _ k3
          exact ⟨_ :: fs, .cons k2 g1, rfl⟩
        | back k1 k2 k3 => exact (other he k1).elim
    · refine ⟨e.reverse :: es, by simp only [linksOn, hl, h1], ?_, fun x => ?_, fun x F hF => ?_⟩
      · intro k hk
        rcases List.mem_cons.1 hk with rfl | hk
        · exact sound_reverse (hu _ _ _ he)
        · exact h2 k hk
      · obtain ⟨fs, g1, g2⟩ := h3 x
        obtain ⟨f, hf⟩ := TEdge.AtCsm_exists (S := S) (csmRef := m.refTime) (TEdge.reverse_wf (hu _ _ _ he).wf) x
        exact ⟨f :: fs, .cons (by rw [(C99_reverse e).1]; exact hf) g1, .back he hf g2⟩
      · cases hF with
        | forth k1 k2 k3 => exact (other he k1).elim
        | back k1 k2 k3 =>
          cases uniq he k1
          obtain ⟨fs, g1, rfl⟩ := h4 x _ k3
          exact ⟨_ :: fs, .cons (by rw [(C99_reverse e).1]; exact k2) g1, rfl⟩

theorem default_wf : UTLcs.default.mm.WF :=
  ⟨(fun h => by cases h), (fun _ => .inl rfl), (fun _ => rfl), Rotation.one⟩

/-- the times of the answer -/
theorem getCsU_clock {S : Slerp} (hS : SlerpOk S) {csmRef timeRef : Option Int} {time t : Time}
    (ht : time.ofTime (timeRef.or csmRef) = .ok t) (hta : t.vals.Pairwise (· < ·)) (hne : t.vals ≠ []) {es : List UEdge}
    (hu : PositiveUnits es) (he : ∀ e ∈ es, e.mm.WF ∧ (e.mm.dependent = true → csmRef = none → e.mm.ref.isSome = t.abs)) {s : UTLcs}
    (hs : getCsU S csmRef es time timeRef = .ok s) (hd : s.mag.dependent = true) : s.mag.clock = t.vals := by
  obtain ⟨h1, _⟩ := C99_get_cs S csmRef hu time timeRef
  obtain ⟨r, hr, _, h3, _⟩ := C62_get_cs hS ht hta hne (es := es.map UEdge.mm) (by
    intro e h
    obtain ⟨e, h', rfl⟩ := List.mem_map.1 h
    exact he e h')
  rw [hr, hs] at h1
  have e : s.mm = r := by injection h1
  rw [← e] at h3
  exact h3 (by rw [UTLcs.mm, TLcs.scale_dependent]; exact hd)

theorem path_answer {S : Slerp} (hS : SlerpOk S) {m : Csm N UEdge D} (I : Inv m) {a b : N} (ha : a ∈ m.names) (hb : b ∈ m.names)
    {time t : Time} {timeRef : Option Int} (ht : time.ofTime (timeRef.or m.refTime) = .ok t) (hta : t.vals.Pairwise (· < ·))
    (hne : t.vals ≠ []) (hu : ∀ a b e, m.Supplied a b e → Sound m.refTime t.abs e) :
    ∃ s p, m.getAt S a b time timeRef = .ok s ∧ s.mm.WF ∧ (s.mag.dependent = true → s.mag.clock = t.vals) ∧ SimplePath m.Adj a b p ∧ ∀ x ∈ t.vals, ∃ f, (∀ g, s.mm.At S x g ↔ g = f) ∧
      (∃ F, Direct S m x p F) ∧ ∀ F, Direct S m x p F → ∀ q, f.toParent q = F q := by
  have hh : ¬(¬ m.has a = true ∨ ¬ m.has b = true) := by simp [Csm.has, ha, hb]
  unfold getAt
  rw [if_neg hh]
  obtain ⟨p, hp⟩ := I.tree.exists_path a b ha hb
  by_cases hab : a = b
  · rw [if_pos hab]
    subst hab
    rw [hp.refl_eq] at hp
    refine ⟨_, [a], rfl, default_wf, (fun h => by cases h), hp, fun x _ => ?_⟩
    obtain ⟨f, e1, e2, hf⟩ := TLcs.At_static (S := S) (c := UTLcs.default.mm) rfl
    refine ⟨f, fun g => hf x g, ⟨_, .here a⟩, fun F hF q => ?_⟩
    cases hF
    have := (hf x f).2 rfl
    have g : UTLcs.default.mm.At S x Lcs.default := by
      refine ⟨?_, ?_⟩
      · exact .static
      · have : UTLcs.default.mm.coord = .static 0 := by
          simp [UTLcs.mm, UTLcs.default, TLcs.scale, Comp.map]
        rw [this]
        exact .static
    rw [← (hf x _).1 g]
    funext i
    fin_cases i <;> simp [Lcs.default, Lcs.toParent]
  · rw [if_neg hab]
    obtain ⟨es, h1, h2, h3, h4⟩ := linksOn_spec (S := S) I hu hp.1
    obtain ⟨s, hs, hw, h5⟩ := getCsU_spec hS ht hta hne (es := es) (fun e he => (h2 e he).unit) fun e he =>
      ⟨(h2 e he).wf, (h2 e he).kind_mm⟩
    refine ⟨s, p, ?_, hw, getCsU_clock hS ht hta hne (fun e he => (h2 e he).unit) (fun e he => ⟨(h2 e he).wf, (h2 e he).kind_mm⟩) hs, hp,
      fun x hx => ?_⟩
    · rw [(shortestPath_iff I ha hb).2 hp]
      simp only [h1, hs]
    · obtain ⟨fs, f1, f2⟩ := h3 x
      obtain ⟨f, hf, fp⟩ := h5 x hx fs f1
      refine ⟨f, fun g => ⟨fun hg => TLcs.At_unique hS hw hg hf, fun e => e ▸ hf⟩, ⟨_, f2⟩, fun F hF q => ?_⟩
      obtain ⟨gs, g1, rfl⟩ := h4 x F hF
      obtain ⟨g, hg, gp⟩ := h5 x hx gs g1
      rw [TLcs.At_unique hS hw hf hg, gp]

/-- **C102.** `get_cs` between any two systems of a manager succeeds for all increasing times. If its answer depends on time, it has
exactly these times, and at each of them it is the composition of the values of the systems on the direct path. -/
theorem C102_path {S : Slerp} (hS : SlerpOk S) {m : Csm N UEdge D} (h : Reachable m) {a b : N} (ha : a ∈ m.names) (hb : b ∈ m.names)
    {time t : Time} {timeRef : Option Int} (ht : time.ofTime (timeRef.or m.refTime) = .ok t) (hta : t.vals.Pairwise (· < ·))
    (hne : t.vals ≠ []) (hu : ∀ a b e, m.Supplied a b e → Sound m.refTime t.abs e) :
    ∃ s p, m.getAt S a b time timeRef = .ok s ∧ s.mm.WF ∧ (s.mag.dependent = true → s.mag.clock = t.vals) ∧ SimplePath m.Adj a b p ∧ ∀ x ∈ t.vals, ∃ f, (∀ g, s.mm.At S x g ↔ g = f) ∧
      (∃ F, Direct S m x p F) ∧ ∀ F, Direct S m x p F → ∀ q, f.toParent q = F q :=
  path_answer hS h.inv ha hb ht hta hne hu

/-! ### chains -/

open Classical in
/-- the value of a system at a time -/
noncomputable def valueAt (S : Slerp) (r : Option Int) (x : Int) (e : UEdge) : Lcs ℝ :=
  if h : ∃ f, e.mm.AtCsm S r x f then h.choose else Lcs.default

open Classical in
/-- the map between two systems -/
noncomputable def permOf (f : Lcs ℝ) : Equiv.Perm (Vec3 ℝ) :=
  if h : f.Orthonormal then
    { toFun := f.toParent
      invFun := f.invert.toParent
      left_inv := fun p => (C02_invert_inverse f h p).1
      right_inv := fun p => (C02_invert_inverse f h p).2.1 }
  else 1

theorem permOf_apply {f : Lcs ℝ} (h : f.Orthonormal) (p : Vec3 ℝ) : permOf f p = f.toParent p := by
  unfold permOf
  rw [dif_pos h]
  rfl

theorem permOf_symm {f : Lcs ℝ} (h : f.Orthonormal) (p : Vec3 ℝ) : (permOf f)⁻¹ p = f.invert.toParent p := by
  unfold permOf
  rw [dif_pos h]
  rfl

/-- systems as maps, composed from left to right -/
noncomputable def asMap (S : Slerp) (r : Option Int) (x : Int) (e : UEdge) : Except CsmError (Equiv.Perm (Vec3 ℝ))ᵐᵒᵖ :=
  .ok (MulOpposite.op (permOf (valueAt S r x e)))

theorem valueAt_eq {S : Slerp} (hS : SlerpOk S) {r : Option Int} {x : Int} {e : UEdge} (hw : e.mm.WF) {f : Lcs ℝ}
    (h : e.mm.AtCsm S r x f) : valueAt S r x e = f := by
  have hx : ∃ f, e.mm.AtCsm S r x f := ⟨f, h⟩
  unfold valueAt
  rw [dif_pos hx]
  exact TEdge.AtCsm_unique hS hw hx.choose_spec h

theorem valueAt_spec {S : Slerp} {r : Option Int} {x : Int} {e : UEdge} (hw : e.mm.WF) : e.mm.AtCsm S r x (valueAt S r x e) := by
  have hx : ∃ f, e.mm.AtCsm S r x f := TEdge.AtCsm_exists hw x
  unfold valueAt
  rw [dif_pos hx]
  exact hx.choose_spec

theorem reverse_value {S : Slerp} (hS : SlerpOk S) {r : Option Int} {x : Int} {e : TEdge} (hw : e.WF) (hx : e.ExactCsm r x) {f : Lcs ℝ}
    (h : e.AtCsm S r x f) : e.reverse.AtCsm S r x f.invert := by
  obtain ⟨y, y1, y2, y3⟩ := TEdge.csm_cases r e x
  exact (y3 S _).2 (TEdge.reverse_at hS hw ((y1 S f).1 h) (y2.1 hx))

section
variable {S : Slerp} (hS : SlerpOk S) {m : Csm N UEdge D} {abs : Bool} (hu : ∀ a b e, m.Supplied a b e → Sound m.refTime abs e) {x : Int}
  (hx : ∀ a b e, m.Supplied a b e → e.mm.ExactCsm m.refTime x)
include hS hu

theorem chain_product (I : Inv m) {a b : N} {F : Vec3 ℝ → Vec3 ℝ} (h : Chain S m x a b F) :
    ∃ q g, Walk m.Adj a b q ∧ PathProduct (asMap S m.refTime x) m q (MulOpposite.op g) ∧ ∀ p, F p = g p := by
  induction h with
  | here a => exact ⟨[a], 1, .nil a, .single a, fun p => rfl⟩
  | @forth a b c e f F h1 h2 _ ih =>
    obtain ⟨q, g, i1, i2, i3⟩ := ih
    obtain ⟨r, rfl⟩ := i1.head_eq
    have ho := TEdge.AtCsm_orthonormal hS (hu _ _ _ h1).wf h2
    refine ⟨a :: b :: r, g * permOf f, .cons ((adj_iff_supplied I).2 ⟨e, .inl h1⟩) i1, ?_, fun p => ?_⟩
    · rw [MulOpposite.op_mul]
      exact .cons (.inl ⟨e, h1, by rw [asMap, valueAt_eq hS (hu _ _ _ h1).wf h2]⟩) i2
    · dsimp only
      rw [i3, Equiv.Perm.mul_apply, permOf_apply ho]
  | @back a b c e f F G h1 h2 h3 _ ih =>
    obtain ⟨q, g, i1, i2, i3⟩ := ih
    obtain ⟨r, rfl⟩ := i1.head_eq
    have ho := TEdge.AtCsm_orthonormal hS (hu _ _ _ h1).wf h2
    refine ⟨a :: b :: r, g * (permOf f)⁻¹, .cons ((adj_iff_supplied I).2 ⟨e, .inr h1⟩) i1, ?_, fun p => ?_⟩
    · rw [MulOpposite.op_mul]
      refine .cons (.inr ⟨e, h1, ?_⟩) i2
      rw [asMap, valueAt_eq hS (hu _ _ _ h1).wf h2, ← MulOpposite.op_inv, inv_inv]
    · dsimp only
      rw [i3, Equiv.Perm.mul_apply]
      congr 1
      rw [Equiv.Perm.eq_inv_iff_eq, permOf_apply ho, h3]

include hx

theorem direct_chain {a b : N} {p : List N} (h : Walk m.Adj a b p) {F : Vec3 ℝ → Vec3 ℝ} (hF : Direct S m x p F) : Chain S m x a b F := by
  induction h generalizing F with
  | nil a => cases hF; exact .here a
  | @cons a c b p hac hw ih =>
    obtain ⟨q, rfl⟩ := hw.head_eq
    cases hF with
    | forth h1 h2 h3 => exact .forth h1 h2 (ih h3)
    | @back _ _ _ e f F h1 h2 h3 =>
      obtain ⟨k, hk⟩ := TEdge.AtCsm_exists (S := S) (csmRef := m.refTime) (hu _ _ _ h1).wf x
      have e1 := TEdge.AtCsm_unique hS (TEdge.reverse_wf (hu _ _ _ h1).wf) h2 (reverse_value hS (hu _ _ _ h1).wf (hx _ _ _ h1) hk)
      subst e1
      exact .back h1 hk (fun p => (C02_invert_inverse k (TEdge.AtCsm_orthonormal hS (hu _ _ _ h1).wf hk) p).2.1) (ih h3)

theorem coherent_at : m.Coherent (asMap S m.refTime x) := by
  intro a b e he
  refine ⟨_, rfl, fun _ => ?_⟩
  have hw := (hu a b e he).wf
  have h1 := reverse_value hS hw (hx a b e he) (valueAt_spec (S := S) (r := m.refTime) (x := x) hw)
  have h2 : (e.reverse).mm.AtCsm S m.refTime x (valueAt S m.refTime x e).invert := by rw [(C99_reverse e).1]; exact h1
  have hw' : e.reverse.mm.WF := (sound_reverse (hu a b e he)).wf
  have ho := TEdge.AtCsm_orthonormal hS hw (valueAt_spec (S := S) (r := m.refTime) (x := x) hw)
  show asMap S m.refTime x e.reverse = _
  unfold asMap
  rw [valueAt_eq hS hw' h2, ← MulOpposite.op_inv]
  congr 2
  ext1 p
  rw [permOf_symm ho, permOf_apply (TEdge.AtCsm_orthonormal hS hw' h2)]

/-- all chains between two systems describe the same map -/
theorem chain_unique (h : Reachable m) {a b : N} (ha : a ∈ m.names) (hb : b ∈ m.names) {F G : Vec3 ℝ → Vec3 ℝ}
    (hF : Chain S m x a b F) (hG : Chain S m x a b G) : F = G := by
  obtain ⟨z, _, _, _, _, hz⟩ := C06_get_cs_path _ h (coherent_at hS hu hx) ha hb
  obtain ⟨q, g, w, hq, e⟩ := chain_product hS hu h.inv hF
  obtain ⟨q', g', w', hq', e'⟩ := chain_product hS hu h.inv hG
  have h1 := C06_composition_unique _ h hq (hz q w)
  have h2 := C06_composition_unique _ h hq' (hz q' w')
  have : g = g' := MulOpposite.op_injective (h1.trans h2.symm)
  funext p
  rw [e, e', this]

end

/-- **C102.** At all requested times at which both directions of all links are inverse to each other (C23), the answer of `get_cs` is the
composition of the supplied systems along any chain of relations between the two systems. -/
theorem C102_chain_partial {S : Slerp} (hS : SlerpOk S) {m : Csm N UEdge D} (h : Reachable m) {a b : N} (ha : a ∈ m.names) (hb : b ∈ m.names)
    {time t : Time} {timeRef : Option Int} (ht : time.ofTime (timeRef.or m.refTime) = .ok t) (hta : t.vals.Pairwise (· < ·))
    (hne : t.vals ≠ []) (hu : ∀ a b e, m.Supplied a b e → Sound m.refTime t.abs e) :
    ∃ s, m.getAt S a b time timeRef = .ok s ∧ ∀ x ∈ t.vals, (∀ a b e, m.Supplied a b e → e.mm.ExactCsm m.refTime x) →
      ∃ f, (∀ g, s.mm.At S x g ↔ g = f) ∧ (∃ F, Chain S m x a b F) ∧ ∀ F, Chain S m x a b F → ∀ q, f.toParent q = F q := by
  obtain ⟨s, p, hs, _, _, hp, h1⟩ := C102_path hS h ha hb ht hta hne hu
  refine ⟨s, hs, fun x hx hex => ?_⟩
  obtain ⟨f, f1, ⟨F, f2⟩, f3⟩ := h1 x hx
  have hc := direct_chain hS hu hex hp.1 f2
  refine ⟨f, f1, ⟨F, hc⟩, fun G hG q => ?_⟩
  rw [f3 F f2, chain_unique hS hu hex h ha hb hG hc]

theorem Chain.append {S : Slerp} {m : Csm N UEdge D} {x : Int} {a b c : N} {F G : Vec3 ℝ → Vec3 ℝ} (h : Chain S m x a b F)
    (h' : Chain S m x b c G) : Chain S m x a c (fun p => G (F p)) := by
  induction h with
  | here a => exact h'
  | forth h1 h2 _ ih => exact .forth h1 h2 (ih h')
  | back h1 h2 h3 _ ih =>
    have := Chain.back h1 h2 h3 (ih h')
    exact this

/-- **C102.** The laws of `get_cs` at these times: a system seen from itself, both directions, and three systems. -/
theorem C102_laws_partial {S : Slerp} (hS : SlerpOk S) {m : Csm N UEdge D} (h : Reachable m) {a b c : N} (ha : a ∈ m.names)
    (hb : b ∈ m.names) (hc : c ∈ m.names) {time t : Time} {timeRef : Option Int} (ht : time.ofTime (timeRef.or m.refTime) = .ok t)
    (hta : t.vals.Pairwise (· < ·)) (hne : t.vals ≠ []) (hu : ∀ a b e, m.Supplied a b e → Sound m.refTime t.abs e) :
    ∃ s₁ s₂ s₃ s₄, m.getAt S a b time timeRef = .ok s₁ ∧ m.getAt S b a time timeRef = .ok s₂ ∧ m.getAt S b c time timeRef = .ok s₃ ∧
      m.getAt S a c time timeRef = .ok s₄ ∧ ∀ x ∈ t.vals, (∀ a b e, m.Supplied a b e → e.mm.ExactCsm m.refTime x) →
        ∀ f₁ f₂ f₃ f₄, s₁.mm.At S x f₁ → s₂.mm.At S x f₂ → s₃.mm.At S x f₃ → s₄.mm.At S x f₄ →
          (a = b → ∀ p, f₁.toParent p = p) ∧ (∀ p, f₂.toParent (f₁.toParent p) = p) ∧
          ∀ p, f₄.toParent p = f₃.toParent (f₁.toParent p) := by
  obtain ⟨s₁, h1, k1⟩ := C102_chain_partial hS h ha hb ht hta hne hu
  obtain ⟨s₂, h2, k2⟩ := C102_chain_partial hS h hb ha ht hta hne hu
  obtain ⟨s₃, h3, k3⟩ := C102_chain_partial hS h hb hc ht hta hne hu
  obtain ⟨s₄, h4, k4⟩ := C102_chain_partial hS h ha hc ht hta hne hu
  refine ⟨s₁, s₂, s₃, s₄, h1, h2, h3, h4, fun x hx hex f₁ f₂ f₃ f₄ g1 g2 g3 g4 => ?_⟩
  obtain ⟨_, e1, ⟨F₁, c1⟩, i1⟩ := k1 x hx hex
  obtain ⟨_, e2, ⟨F₂, c2⟩, i2⟩ := k2 x hx hex
  obtain ⟨_, e3, ⟨F₃, c3⟩, i3⟩ := k3 x hx hex
  obtain ⟨_, e4, _, i4⟩ := k4 x hx hex
  cases (e1 _).1 g1; cases (e2 _).1 g2; cases (e3 _).1 g3; cases (e4 _).1 g4
  refine ⟨fun hab p => ?_, fun p => ?_, fun p => ?_⟩
  · subst hab
    exact i1 _ (.here a) p
  · rw [i2 _ c2, i1 _ c1]
    exact congrFun (chain_unique hS hu hex h ha ha (c1.append c2) (.here a)) p
  · rw [i4 _ (c1.append c3), i3 _ c3, i1 _ c1]

/-- **C102.** The other direction of a link stores the inverse system. It stores nothing if the coordinates are an expression. -/
theorem C102_stored {m : Csm N UEdge D} (h : Reachable m) {a b : N} {e : UEdge} (hs : m.Supplied a b e) :
    (∀ f, e.mag = .discrete f → m.edge? b a = some ⟨false, some e.reverse⟩) ∧
      ∀ f x, e.mag = .expression f x → m.edge? b a = some ⟨false, none⟩ := by
  have hadj : m.Adj a b := (adj_iff_supplied h.inv).2 ⟨_, .inl hs⟩
  have he := ((C05_links h hadj).2 e hs).2
  constructor
  · intro f hf
    have : LcsLike.isSeries e = false := by show e.isExpression = false; simp [UEdge.isExpression, hf]
    rw [he, this]; rfl
  · intro f x hf
    have : LcsLike.isSeries e = true := by show e.isExpression = true; simp [UEdge.isExpression, hf]
    rw [he, this]; rfl

/-- **C102.** Asking for an unknown system is an error. Without a reference system the parent is used; the root has none, which is an
error. -/
theorem C102_missing_and_parent (S : Slerp) {m : Csm N UEdge D} (h : Reachable m) {a b : N} (time : Time) (timeRef : Option Int) :
    (a ∉ m.names ∨ b ∉ m.names → m.getAt S a b time timeRef = .error (.inl .valueError)) ∧
    (a ∉ m.names → m.getAtParent S a time timeRef = .error (.inl .valueError)) ∧
    m.getAtParent S m.root time timeRef = .error (.inl .valueError) ∧
    (∀ r, SimplePath m.Adj a m.root (a :: b :: r) → m.getAtParent S a time timeRef = m.getAt S a b time timeRef) := by
  have I := h.inv
  refine ⟨fun hn => ?_, fun hn => ?_, ?_, fun r hr => ?_⟩
  · unfold getAt
    rw [if_pos]
    simpa [Csm.has] using hn
  · have : m.getParent a = .error .valueError := by
      have hne : a ≠ m.root := fun e => hn (e ▸ I.root_mem)
      simp [getParent, if_neg hne, checkExists, Csm.has, hn, bind, Except.bind]
    simp only [getAtParent, this]
  · simp only [getAtParent, getParent_root]
  · have hadj : m.Adj a b := by
      cases hr.1 with
      | cons h hw =>
        obtain ⟨q, hq⟩ := hw.head_eq
        cases hq
        exact h
    have ha : a ∈ m.names := I.tree.mem _ _ hadj
    have hne : a ≠ m.root := by
      intro e
      have := hr
      rw [← e] at this
      simpa using this.refl_eq
    have : m.getParent a = .ok (some b) := by
      simp only [getParent, if_neg hne, checkExists_ok ha, (shortestPath_iff I ha I.root_mem).2 hr]
      rfl
    simp only [getAtParent, this]

/-- **C102.** Two managers with the same supplied relations and the same reference time give the same answers: neither the order in which
systems were added nor the root matters. -/
theorem C102_order_independent (S : Slerp) {m m' : Csm N UEdge D} (h : Reachable m) (h' : Reachable m')
    (hs : ∀ a b e, m.Supplied a b e ↔ m'.Supplied a b e) (hr : m'.refTime = m.refTime) {a b : N} (ha : a ∈ m.names) (hb : b ∈ m.names)
    (ha' : a ∈ m'.names) (hb' : b ∈ m'.names) (time : Time) (timeRef : Option Int) :
    m'.getAt S a b time timeRef = m.getAt S a b time timeRef := by
  have I := h.inv
  have I' := h'.inv
  have hadj : m'.Adj = m.Adj := by
    funext x y
    exact propext ⟨fun k => (adj_iff_supplied I).2 (by obtain ⟨e, k⟩ := (adj_iff_supplied I').1 k; exact ⟨e, by rw [hs, hs]; exact k⟩),
      fun k => (adj_iff_supplied I').2 (by obtain ⟨e, k⟩ := (adj_iff_supplied I).1 k; exact ⟨e, by rw [← hs, ← hs]; exact k⟩)⟩
  have link : ∀ x y, m.Adj x y → m'.linkOn x y = m.linkOn x y := by
    intro x y hxy
    obtain ⟨k, hk⟩ := Dict.mem_keys_iff.1 hxy
    obtain ⟨k', hk', hp⟩ := I.paired x y k hk
    rcases hp with ⟨e, rfl, rfl⟩ | ⟨e, rfl, rfl⟩
    · simp only [linkOn, edge?, Dict.get?_of_mem I.edgesNodup hk, Dict.get?_of_mem I'.edgesNodup ((hs x y e).1 hk)]
    · have j := (hs y x e).1 hk'
      obtain ⟨i, hi, hq⟩ := I'.paired y x _ j
      rcases hq with ⟨d, hd, rfl⟩ | ⟨d, hd, hd'⟩
      · have : e = d := by simpa using hd
        subst this
        unfold linkOn edge?
        rw [Dict.get?_of_mem I.edgesNodup hk, Dict.get?_of_mem I.edgesNodup hk', Dict.get?_of_mem I'.edgesNodup hi,
          Dict.get?_of_mem I'.edgesNodup j]
      · cases hd'
  have links : ∀ {p : List N} {x y : N}, Walk m.Adj x y p → m'.linksOn p = m.linksOn p := by
    intro p x y hw
    induction hw with
    | nil a => rfl
    | cons hac hw ih =>
      obtain ⟨q, rfl⟩ := hw.head_eq
      simp only [linksOn, link _ _ hac, ih]
  obtain ⟨p, hp⟩ := I.tree.exists_path a b ha hb
  unfold getAt
  simp only [(shortestPath_iff I ha hb).2 hp, (shortestPath_iff I' ha' hb').2 (hadj ▸ hp), links hp.1, hr, Csm.has, ha, hb, ha', hb']

/-! ### examples -/

namespace ManagerDemo

/-- a robot in centimetres that moves -/
noncomputable def robot : UEdge := ⟨10, .discrete ⟨some [0, 10], none, .static 1, .series [![0, 0, 0], ![0, 5, 0]]⟩⟩
/-- a torch in metres that is moved by an expression -/
noncomputable def torch : UEdge := ⟨1000, .expression ⟨none, none, .static 1, fun t => ![0, 0, t]⟩ false⟩
/-- half a turn, C23 -/
noncomputable def turning : UEdge := ⟨1, .discrete halfTurn⟩

theorem robot_mm : robot.mm = .discrete ⟨some [0, 10], none, .static 1, .series [![0, 0, 0], ![0, 50, 0]]⟩ := by
  simp [UEdge.mm, robot, TEdge.scale, TLcs.scale, Comp.map]
  norm_num

theorem turning_mm : turning.mm = .discrete halfTurn := by
  simp [UEdge.mm, turning, TEdge.scale, TLcs.scale, Comp.map, halfTurn]

theorem robot_sound : Sound none false robot where
  wf := by
    rw [robot_mm]
    exact ⟨⟨(fun _ => ⟨[0, 10], rfl, by simp, by simp, trivial, rfl⟩), (fun h => by cases h), (fun h => by cases h), Rotation.one⟩,
      fun h => by cases h⟩
  unit := by norm_num [robot]
  kind _ _ := rfl

theorem torch_sound : Sound none false torch where
  wf := ⟨(fun h => by cases h), (fun _ => rfl), Rotation.one⟩
  unit := by norm_num [torch]
  kind _ _ := rfl

theorem turning_sound : Sound none false turning where
  wf := by rw [turning_mm]; exact ⟨halfTurn_wf, fun h => by simp [halfTurn, TLcs.dependent, Comp.isSeries] at h⟩
  unit := by norm_num [turning]
  kind _ _ := rfl

/-- the torch (2) at the robot (1) in the hall (0) -/
noncomputable def cell : Csm ℕ UEdge Unit := (addCs 2 1 torch true true (addCs 1 0 robot true true (init 0 100 none)).state).state

theorem cell_edges : cell.edges = [((1, 0), ⟨true, some robot⟩), ((0, 1), ⟨false, reverseOf robot⟩), ((2, 1), ⟨true, some torch⟩),
    ((1, 2), ⟨false, reverseOf torch⟩)] := rfl

/-- the hypotheses of `C102_path`, `C102_chain_partial` and `C102_laws_partial` -/
example : Reachable cell ∧ 0 ∈ cell.names ∧ 2 ∈ cell.names ∧ (∀ a b e, cell.Supplied a b e → Sound cell.refTime false e) ∧
    ∀ x a b e, cell.Supplied a b e → e.mm.ExactCsm cell.refTime x := by
  have sup : ∀ a b u, cell.Supplied a b u → u = robot ∨ u = torch := by
    intro a b u h
    unfold Supplied at h
    rw [cell_edges] at h
    simp only [List.mem_cons, Prod.mk.injEq, Edge.mk.injEq, List.not_mem_nil, or_false, Option.some.injEq] at h
    rcases h with h | h | h | h
    · exact .inl h.2.2
    · cases h.2.1
    · exact .inr h.2.2
    · cases h.2.1
  refine ⟨.addCs _ _ _ _ _ (.addCs _ _ _ _ _ (.init _ _ _)), ?_, ?_, fun a b e h => ?_, fun x a b e h => ?_⟩
  · show 0 ∈ [0, 1, 2]; simp
  · show 2 ∈ [0, 1, 2]; simp
  · rcases sup a b e h with rfl | rfl
    · exact robot_sound
    · exact torch_sound
  · rcases sup a b e h with rfl | rfl
    · rw [robot_mm]; exact .inl rfl
    · trivial

/-- the hypotheses of `C102_stored`: the robot is inverted, the torch is not -/
example : cell.edge? 0 1 = some ⟨false, some robot.reverse⟩ ∧ cell.edge? 1 2 = some ⟨false, none⟩ := by
  have h : Reachable cell := .addCs _ _ _ _ _ (.addCs _ _ _ _ _ (.init _ _ _))
  have hr : cell.Supplied 1 0 robot := by unfold Supplied; rw [cell_edges]; simp
  have ht : cell.Supplied 2 1 torch := by unfold Supplied; rw [cell_edges]; simp
  exact ⟨(C102_stored h hr).1 _ rfl, (C102_stored h ht).2 _ _ rfl⟩

/-- a system that turns (1) at the root (0) -/
noncomputable def pair : Csm ℕ UEdge Unit := (addCs 1 0 turning true true (init 0 100 none)).state

theorem pair_edges : pair.edges = [((1, 0), ⟨true, some turning⟩), ((0, 1), ⟨false, reverseOf turning⟩)] := rfl

theorem pair_supplied {a b : ℕ} {e : UEdge} (h : pair.Supplied a b e) : a = 1 ∧ b = 0 ∧ e = turning := by
  unfold Supplied at h
  rw [pair_edges] at h
  simp only [List.mem_cons, Prod.mk.injEq, Edge.mk.injEq, List.not_mem_nil, or_false, Option.some.injEq] at h
  rcases h with h | h
  · exact ⟨h.1.1, h.1.2, h.2.2⟩
  · cases h.2.1

end ManagerDemo

open ManagerDemo

/-- **C102 fails** between the times of a system: the answers of both directions are not inverse to each other (C23). -/
theorem C102_counterexample {S : Slerp} (hS : SlerpOk S) : ∃ (m : Csm ℕ UEdge Unit), Reachable m ∧ 0 ∈ m.names ∧ 1 ∈ m.names ∧
    (∀ a b e, m.Supplied a b e → Sound m.refTime false e) ∧ ∃ s s', m.getAt S 1 0 ⟨false, [1, 2], none⟩ none = .ok s ∧
      m.getAt S 0 1 ⟨false, [1, 2], none⟩ none = .ok s' ∧ ∃ f g, s.mm.At S 1 f ∧ s'.mm.At S 1 g ∧ ¬ ∀ p, g.toParent (f.toParent p) = p := by
  have hr : Reachable pair := .addCs _ _ _ _ _ (.init _ _ _)
  have h0 : 0 ∈ pair.names := by show 0 ∈ [0, 1]; simp
  have h1 : 1 ∈ pair.names := by show 1 ∈ [0, 1]; simp
  have hu : ∀ a b e, pair.Supplied a b e → Sound pair.refTime false e := fun a b e h => by
    rw [(pair_supplied h).2.2]; exact turning_sound
  have ht : (⟨false, [1, 2], none⟩ : Time).ofTime (none.or pair.refTime) = .ok ⟨false, [1, 2], none⟩ := by
    show (⟨false, [1, 2], none⟩ : Time).ofTime none = _
    simp [Time.ofTime, Time.make, Time.monotonic]
  have hsup : pair.Supplied 1 0 turning := by unfold Supplied; rw [pair_edges]; simp
  have hadj : pair.Adj 1 0 := (adj_iff_supplied hr.inv).2 ⟨_, .inl hsup⟩
  have p10 : SimplePath pair.Adj 1 0 [1, 0] := ⟨.cons hadj (.nil 0), by simp⟩
  have p01 : SimplePath pair.Adj 0 1 [0, 1] := ⟨.cons (hr.inv.tree.symm _ _ hadj) (.nil 1), by simp⟩
  obtain ⟨s, p, hs, _, _, hp, k⟩ := C102_path hS hr h1 h0 ht (by simp) (by simp) hu
  obtain ⟨s', p', hs', _, _, hp', k'⟩ := C102_path hS hr h0 h1 ht (by simp) (by simp) hu
  cases hr.inv.tree.path_unique _ _ _ _ hp p10
  cases hr.inv.tree.path_unique _ _ _ _ hp' p01
  obtain ⟨f, f1, _, f2⟩ := k 1 (by simp)
  obtain ⟨g, g1, _, g2⟩ := k' 1 (by simp)
  obtain ⟨F, hF⟩ := TLcs.At_exists S halfTurn_wf 1
  obtain ⟨G, hG⟩ := TEdge.At_exists S (TEdge.reverse_wf (turning_mm ▸ turning_sound.wf)) 1
  have hF' : turning.mm.AtCsm S pair.refTime 1 F := by rw [turning_mm]; exact hF
  have hG' : turning.mm.reverse.AtCsm S pair.refTime 1 G := by rw [turning_mm]; exact hG
  have e1 : f = F := Lcs.ext_toParent fun q => f2 _ (.forth hsup hF' (.here 0)) q
  have e2 : g = G := Lcs.ext_toParent fun q => g2 _ (.back hsup hG' (.here 1)) q
  subst e1 e2
  refine ⟨pair, hr, h0, h1, hu, s, s', hs, hs', f, g, (f1 f).2 rfl, (g1 g).2 rfl, fun h => ?_⟩
  refine ((C23_counterexample hS).2 f g hF hG).2.2 (Lcs.ext_toParent fun q => ?_)
  have ho := TEdge.Rotation.orthonormal (TLcs.At_rotation hS halfTurn_wf hF)
  have := h (f.invert.toParent q)
  rwa [(C02_invert_inverse f ho q).2.1] at this

end Csm
end Weldx
