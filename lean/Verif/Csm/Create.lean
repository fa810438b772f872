import Verif.Csm.EqualityProps
import Verif.Frame.RotationProps
import Verif.TimeLcs.ConstructProps

/-!
# Creation of coordinate systems by the manager (C87)

Source: `/repo/weldx/transformations/cs_manager.py` 658-701 (`create_cs`), 703-765 (`create_cs_from_euler`), 767-831
(`create_cs_from_axis_vectors`); `/repo/weldx/transformations/local_cs.py` 421-474 (`from_euler`), 477-541 (`from_axis_vectors`).

Simplifications: as in `Csm/Model.lean`, `Frame/Model.lean` and `Frame/Rotation.lean`; one orientation and one position. `create` is
the common part of the three methods for systems of any kind.
-/

namespace Weldx.Csm

open Matrix

/-! ### model -/

section Generic
variable {N S D E : Type} [DecidableEq N] [LcsLike S]

/-- a system is built, then added: errors of both steps; 698-701, 760-765, 826-831 -/
def create (built : Except E S) (n ref : N) (childInParent : Bool) : Py (E ⊕ CsmError) (Csm N S D) Unit := fun m =>
  match built with
  | .error e => .err (.inl e) m
  | .ok s => match addCs n ref s childInParent true m with
    | .ok _ m' => .ok () m'
    | .err e m' => .err (.inr e) m'

end Generic

/-- errors of the constructors; `sequence` is raised by scipy -/
inductive BuildErr
  | lcs (e : LcsError)
  | sequence
  deriving DecidableEq

/-- the constructor accepts orthonormal systems only (`built_ok` below: the last case does not occur) -/
noncomputable def toFrame (x : Except LcsError (Lcs ℝ)) : Except BuildErr (Frame ℝ) :=
  open Classical in
  match x with
  | .error e => .error (.lcs e)
  | .ok f => if h : f.Orthonormal then .ok ⟨f, h⟩ else .error .sequence

/-- `LocalCoordinateSystem(orientation, coordinates)` -/
noncomputable def buildPlain (orientation : Option (Mat3 ℝ)) (coordinates : Option (Vec3 ℝ)) : Except BuildErr (Frame ℝ) :=
  toFrame (construct (orientation.getD 1) (coordinates.getD 0))

/-- `LocalCoordinateSystem.from_euler` -/
noncomputable def buildEuler (seq : Rot.Seq) (angles : List ℝ) (degrees : Bool) (coordinates : Option (Vec3 ℝ)) :
    Except BuildErr (Frame ℝ) :=
  match Rot.fromEuler seq (.one angles) degrees with
  | some ⟨.one R, _⟩ => buildPlain (some R) coordinates
  | _ => .error .sequence

/-- `LocalCoordinateSystem.from_axis_vectors` -/
noncomputable def buildAxes (x y z : Option (Vec3 ℝ)) (coordinates : Option (Vec3 ℝ)) : Except BuildErr (Frame ℝ) :=
  toFrame (fromAxisVectors x y z (coordinates.getD 0))

variable {N D : Type} [DecidableEq N]

/-- `create_cs`, 658-701 -/
noncomputable def createCs (n ref : N) (orientation : Option (Mat3 ℝ) := none) (coordinates : Option (Vec3 ℝ) := none)
    (childInParent : Bool := true) : Py (BuildErr ⊕ CsmError) (Csm N (Frame ℝ) D) Unit :=
  create (buildPlain orientation coordinates) n ref childInParent

/-- `create_cs_from_euler`, 703-765 -/
noncomputable def createEuler (n ref : N) (seq : Rot.Seq) (angles : List ℝ) (degrees : Bool := false)
    (coordinates : Option (Vec3 ℝ) := none) (childInParent : Bool := true) :
    Py (BuildErr ⊕ CsmError) (Csm N (Frame ℝ) D) Unit :=
  create (buildEuler seq angles degrees coordinates) n ref childInParent

/-- `create_cs_from_axis_vectors`, 767-831 -/
noncomputable def createAxes (n ref : N) (x y z : Option (Vec3 ℝ)) (coordinates : Option (Vec3 ℝ) := none)
    (childInParent : Bool := true) : Py (BuildErr ⊕ CsmError) (Csm N (Frame ℝ) D) Unit :=
  create (buildAxes x y z coordinates) n ref childInParent

end Weldx.Csm

namespace Weldx.CreateSpec

open Matrix Weldx.Rot

/-! ### specification -/

/-- turn a point about an axis -/
noncomputable def rotate : Axis → ℝ → Vec3 ℝ → Vec3 ℝ
  | .x, t, p => ![p 0, Real.cos t * p 1 - Real.sin t * p 2, Real.sin t * p 1 + Real.cos t * p 2]
  | .y, t, p => ![Real.cos t * p 0 + Real.sin t * p 2, p 1, Real.cos t * p 2 - Real.sin t * p 0]
  | .z, t, p => ![Real.cos t * p 0 - Real.sin t * p 1, Real.sin t * p 0 + Real.cos t * p 1, p 2]

/-- extrinsic turns are made in the given order, intrinsic ones in reverse order -/
noncomputable def turned (intrinsic : Bool) (l : List (Axis × ℝ)) (p : Vec3 ℝ) : Vec3 ℝ :=
  if intrinsic then l.foldr (fun q v => rotate q.1 q.2 v) p else l.foldl (fun v q => rotate q.1 q.2 v) p

/-- a unit vector with the direction of a vector -/
def Along (u v : Vec3 ℝ) : Prop := dot3 u u = 1 ∧ ∃ s : ℝ, 0 < s ∧ v = s • u

/-! ### theorems -/

theorem elem_mulVec (a : Axis) (t : ℝ) (p : Vec3 ℝ) : elem a t *ᵥ p = rotate a t p := by
  cases a <;> funext i <;> fin_cases i <;> simp [elem, rotate, Matrix.mulVec, dotProduct, Fin.sum_univ_three] <;> ring

theorem elem_orth (a : Axis) (t : ℝ) : elem a t * (elem a t)ᵀ = 1 := by
  have h := Real.cos_sq_add_sin_sq t
  cases a <;> ext i j <;> fin_cases i <;> fin_cases j <;>
    simp [elem, Matrix.mul_apply, Fin.sum_univ_three] <;> nlinarith [h]

theorem composeFrom_mulVec (b : Bool) (l : List (Axis × ℝ)) (M : Mat3 ℝ) (p : Vec3 ℝ) :
    composeFrom b M l *ᵥ p = if b then M *ᵥ turned true l p else turned false l (M *ᵥ p) := by
  induction l generalizing M with
  | nil => cases b <;> simp [composeFrom, turned]
  | cons q l ih =>
    rw [composeFrom, ih]
    cases b
    · simp [turned, ← Matrix.mulVec_mulVec, elem_mulVec]
    · simp [turned, ← Matrix.mulVec_mulVec, elem_mulVec]

theorem compose_mulVec (b : Bool) (l : List (Axis × ℝ)) (p : Vec3 ℝ) : compose b l *ᵥ p = turned b l p := by
  rw [compose, composeFrom_mulVec]
  cases b <;> simp

theorem composeFrom_orth (b : Bool) (l : List (Axis × ℝ)) {M : Mat3 ℝ} (hM : M * Mᵀ = 1) :
    composeFrom b M l * (composeFrom b M l)ᵀ = 1 := by
  induction l generalizing M with
  | nil => exact hM
  | cons q l ih =>
    refine ih ?_
    cases b
    · simp only [Bool.false_eq_true, if_false, Matrix.transpose_mul]
      rw [Matrix.mul_assoc, ← Matrix.mul_assoc M, hM, Matrix.one_mul, elem_orth]
    · simp only [if_true, Matrix.transpose_mul]
      rw [Matrix.mul_assoc, ← Matrix.mul_assoc (elem _ _), elem_orth, Matrix.one_mul, hM]

theorem compose_orth (b : Bool) (l : List (Axis × ℝ)) : compose b l * (compose b l)ᵀ = 1 :=
  composeFrom_orth b l (by simp)

theorem columns {M : Mat3 ℝ} (hM : M * Mᵀ = 1) (i j : Fin 3) :
    dot3 (fun k => M k i) (fun k => M k j) = if i = j then 1 else 0 := by
  have h : Mᵀ * M = 1 := mul_eq_one_comm.1 hM
  have h2 := congrFun (congrFun h i) j
  simp only [Matrix.mul_apply, Matrix.transpose_apply, Fin.sum_univ_three, Matrix.one_apply] at h2
  exact h2

/-- an orthogonal matrix is taken over as it is -/
theorem construct_orth {M : Mat3 ℝ} (hM : M * Mᵀ = 1) (T : Vec3 ℝ) : construct M T = .ok ⟨M, T⟩ := by
  have hc := columns hM
  obtain ⟨f, hf⟩ := (C03_construct_iff M T).2 ⟨fun j h => by
    have := hc j j
    rw [h] at this
    simp [dot3] at this, fun j k hjk => by rw [hc, if_neg hjk]⟩
  obtain ⟨h1, h2, h3⟩ := C03_construct_result M T f hf
  rw [hf]
  congr 1
  obtain ⟨O, C⟩ := f
  simp only at h2
  subst h2
  congr 1
  ext i j
  obtain ⟨s, hs, he⟩ := h3 j
  have ha := h1 j j
  have hb := hc j j
  rw [he] at hb
  simp only [if_true] at ha hb
  have hb2 : s * s * dot3 (Lcs.axis ⟨O, C⟩ j) (Lcs.axis ⟨O, C⟩ j) = 1 := by
    rw [← hb]; simp [dot3]; ring
  rw [ha] at hb2
  have : s = 1 := by nlinarith
  subst this
  have := congrFun he i
  simpa [Lcs.axis] using this.symm

end Weldx.CreateSpec

namespace Weldx.Csm

open Matrix CreateSpec

variable {N D : Type} [DecidableEq N]

theorem toFrame_ok {M : Mat3 ℝ} {T : Vec3 ℝ} {f : Lcs ℝ} (h : construct M T = .ok f) :
    toFrame (construct M T) = .ok ⟨f, (C03_construct_result M T f h).1⟩ := by
  unfold toFrame
  rw [h]
  simp only [dif_pos (C03_construct_result M T f h).1]

theorem toFrame_err {x : Except LcsError (Lcs ℝ)} {e : LcsError} (h : x = .error e) : toFrame x = .error (.lcs e) := by
  subst h; rfl

/-- **C87.** An orientation is accepted exactly if its columns are not zero and pairwise perpendicular. The origin of the system is at
the given position, its axes are the directions of the columns. -/
theorem C87_plain (M : Mat3 ℝ) (T : Vec3 ℝ) :
    ((∃ f, buildPlain (some M) (some T) = .ok f) ↔
      (∀ j, (fun i => M i j) ≠ 0) ∧ ∀ j k, j ≠ k → dot3 (fun i => M i j) (fun i => M i k) = 0) ∧
    ∀ f, buildPlain (some M) (some T) = .ok f → f.1.coordinates = T ∧ ∀ j, Along (f.1.axis j) fun i => M i j := by
  have key : ∀ f, buildPlain (some M) (some T) = .ok f → construct M T = .ok f.1 := fun f hf => by
    cases hx : construct M T with
    | error e => rw [buildPlain, Option.getD_some, Option.getD_some, toFrame_err hx] at hf; cases hf
    | ok g =>
      rw [buildPlain, Option.getD_some, Option.getD_some, toFrame_ok hx] at hf
      cases hf; rfl
  refine ⟨?_, fun f hf => ?_⟩
  · rw [← C03_construct_iff M T]
    exact ⟨fun ⟨f, hf⟩ => ⟨f.1, key f hf⟩, fun ⟨f, hf⟩ => ⟨_, toFrame_ok hf⟩⟩
  · obtain ⟨h1, h2, h3⟩ := C03_construct_result M T f.1 (key f hf)
    exact ⟨h2, fun j => ⟨by simpa using h1 j j, h3 j⟩⟩

/-- **C87.** Nothing given: the system of the reference system. -/
theorem C87_default : buildPlain none none = .ok 1 := by
  have h : construct (1 : Mat3 ℝ) 0 = .ok ⟨1, 0⟩ := construct_orth (by simp) 0
  rw [buildPlain, Option.getD_none, Option.getD_none, toFrame_ok h]
  rfl

/-- **C87.** Angles are accepted exactly if there is one for each axis of a valid sequence. A point of the system is turned about the
axes and moved to the given position. -/
theorem C87_euler (s : Rot.Seq) (a : List ℝ) (degrees : Bool) (T : Option (Vec3 ℝ)) :
    ((∃ f, buildEuler s a degrees T = .ok f) ↔ s.Valid ∧ a.length = s.axes.length) ∧
    (∀ f, buildEuler s a degrees T = .ok f → ∀ p, f.1.toParent p =
      turned s.intrinsic (s.axes.zip (a.map fun v => if degrees then v * (Real.pi / 180) else v)) p + T.getD 0) ∧
    (¬ (s.Valid ∧ a.length = s.axes.length) → buildEuler s a degrees T = .error .sequence) := by
  have ok : s.Valid ∧ a.length = s.axes.length → ∃ f : Frame ℝ, buildEuler s a degrees T = .ok f ∧
      f.1 = ⟨Rot.turn s (a.map (Rot.rad degrees)), T.getD 0⟩ := fun ⟨h1, h2⟩ => by
    have := Rot.fromEuler_eq (s := s) (angles := .one a) (d := degrees) h1 (fun b hb => by
      simp only [Rot.Shaped.toList, List.mem_singleton] at hb
      rw [hb, h2])
    have hc := construct_orth (compose_orth s.intrinsic (s.axes.zip (a.map (Rot.rad degrees)))) (T.getD 0)
    refine ⟨⟨_, (C03_construct_result _ _ _ hc).1⟩, ?_, rfl⟩
    simp only [buildEuler, this, Rot.Shaped.map, buildPlain, Option.getD_some]
    exact toFrame_ok hc
  have bad : ¬ (s.Valid ∧ a.length = s.axes.length) → buildEuler s a degrees T = .error .sequence := fun h => by
    cases hx : Rot.fromEuler s (.one a) degrees with
    | none => simp only [buildEuler, hx]
    | some r =>
      obtain ⟨h1, h2, -⟩ := Rot.fromEuler_some hx
      exact absurd ⟨h1, h2 a (by simp [Rot.Shaped.toList])⟩ h
  refine ⟨⟨fun ⟨f, hf⟩ => ?_, fun h => ?_⟩, fun f hf p => ?_, bad⟩
  · by_contra h
    rw [bad h] at hf; cases hf
  · obtain ⟨f, h1, -⟩ := ok h
    exact ⟨f, h1⟩
  · by_cases h : s.Valid ∧ a.length = s.axes.length
    · obtain ⟨g, h1, h2⟩ := ok h
      rw [hf] at h1
      cases h1
      have e : turned s.intrinsic (s.axes.zip (a.map fun v => if degrees then v * (Real.pi / 180) else v)) p =
          Rot.turn s (a.map (Rot.rad degrees)) *ᵥ p := (compose_mulVec _ _ _).symm
      rw [e, h2]
      funext i
      simp [Lcs.toParent, Matrix.mulVec, dotProduct, Fin.sum_univ_three]
      ring
    · rw [bad h] at hf; cases hf

/-- **C87.** Two perpendicular axes: the system has axes with these directions, the third one makes it right-handed; three axes: the
system has axes with these directions; fewer axes are an error. -/
theorem C87_axes (T : Vec3 ℝ) :
    (∀ u v, u ≠ 0 → v ≠ 0 → dot3 u v = 0 →
      (∃ f, buildAxes (some u) (some v) none (some T) = .ok f ∧ f.1.coordinates = T ∧ f.1.handedness = 1 ∧
        Along (f.1.axis 0) u ∧ Along (f.1.axis 1) v) ∧
      (∃ f, buildAxes (some u) none (some v) (some T) = .ok f ∧ f.1.coordinates = T ∧ f.1.handedness = 1 ∧
        Along (f.1.axis 0) u ∧ Along (f.1.axis 2) v) ∧
      (∃ f, buildAxes none (some u) (some v) (some T) = .ok f ∧ f.1.coordinates = T ∧ f.1.handedness = 1 ∧
        Along (f.1.axis 1) u ∧ Along (f.1.axis 2) v)) ∧
    (∀ x y z, x ≠ 0 → y ≠ 0 → z ≠ 0 → dot3 x y = 0 → dot3 x z = 0 → dot3 y z = 0 →
      ∃ f, buildAxes (some x) (some y) (some z) (some T) = .ok f ∧ f.1.coordinates = T ∧ Along (f.1.axis 0) x ∧
        Along (f.1.axis 1) y ∧ Along (f.1.axis 2) z) ∧
    (∀ u, buildAxes none none none (some T) = .error (.lcs .tooFewVectors) ∧
      buildAxes (some u) none none (some T) = .error (.lcs .tooFewVectors) ∧
      buildAxes none (some u) none (some T) = .error (.lcs .tooFewVectors) ∧
      buildAxes none none (some u) (some T) = .error (.lcs .tooFewVectors)) := by
  have ok : ∀ {x y z : Option (Vec3 ℝ)} {f : Lcs ℝ}, fromAxisVectors x y z T = .ok f → ∀ h : f.Orthonormal,
      buildAxes x y z (some T) = .ok ⟨f, h⟩ := fun {x y z f} h1 h2 => by
    unfold buildAxes toFrame
    rw [Option.getD_some, h1]
    simp only [dif_pos h2]
  refine ⟨fun u v hu hv huv => ?_, fun x y z hx hy hz h1 h2 h3 => ?_, fun u => ?_⟩
  · obtain ⟨⟨f, a1, a2, a3, a4, a5, a6⟩, ⟨g, b1, b2, b3, b4, b5, b6⟩, ⟨k, c1, c2, c3, c4, c5, c6⟩⟩ :=
      C04_from_two_axes u v T hu hv huv
    exact ⟨⟨_, ok a1 a2, a4, a3, ⟨by simpa using a2 0 0, a5⟩, ⟨by simpa using a2 1 1, a6⟩⟩,
      ⟨_, ok b1 b2, b4, b3, ⟨by simpa using b2 0 0, b5⟩, ⟨by simpa using b2 2 2, b6⟩⟩,
      ⟨_, ok c1 c2, c4, c3, ⟨by simpa using c2 1 1, c5⟩, ⟨by simpa using c2 2 2, c6⟩⟩⟩
  · obtain ⟨f, hf⟩ := (C04_from_three_axes x y z T).2 ⟨hx, hy, hz, h1, h2, h3⟩
    have e : fromAxisVectors (some x) (some y) (some z) T
        = construct (Matrix.of fun i j => (![x, y, z] : Fin 3 → Vec3 ℝ) j i) T := by
      simp [fromAxisVectors, completeAxes, bind, Except.bind]
    obtain ⟨r1, r2, r3⟩ := C03_construct_result _ _ _ (e ▸ hf)
    exact ⟨_, ok hf r1, r2, ⟨by simpa using r1 0 0, r3 0⟩, ⟨by simpa using r1 1 1, r3 1⟩, ⟨by simpa using r1 2 2, r3 2⟩⟩
  · obtain ⟨h1, h2, h3, h4⟩ := C04_too_few_axes u T
    exact ⟨toFrame_err h1, toFrame_err h2, toFrame_err h3, toFrame_err h4⟩

/-- **C87.** A system is created exactly if it can be built, its times fit to those of the manager, the reference system exists and the
name is new or that of a neighbour of the reference system. Otherwise the manager is not changed; an error of the constructor is passed
on. -/
theorem C87_when {S E : Type} [LcsLike S] {m : Csm N S D} (h : Reachable m) (x : Except E S) (n ref : N) (dir : Bool) :
    ((∃ m', create x n ref dir m = .ok () m') ↔
      (∃ s, x = .ok s ∧ m.addCsRejected s = false) ∧ ref ∈ m.names ∧ (n ∈ m.names → m.Adj n ref)) ∧
    (∀ e m', create x n ref dir m = .err e m' → m' = m) ∧
    (∀ e, x = .error e → create x n ref dir m = .err (.inl e) m) ∧
    Reachable (create x n ref dir m).state := by
  cases x with
  | error e => exact ⟨by simp [create], fun _ _ h => by cases h; rfl, fun _ h => by cases h; rfl, h⟩
  | ok f =>
    have hs := C12_add_succeeds h n ref f dir true
    have hr := Reachable.addCs n ref f dir true h
    have hu := (C11_rejected_unchanged (o := m) h).1 n ref f dir true
    simp only [create]
    cases ha : addCs n ref f dir true m with
    | ok a m' =>
      rw [ha] at hs hr
      refine ⟨by simpa using hs.1 ⟨m', rfl⟩, by simp, by simp, hr⟩
    | err e m' =>
      rw [ha] at hs hr hu
      have hm : m' = m := hu trivial
      refine ⟨?_, fun e' m2 h2 => by cases h2; exact hm, by simp, hr⟩
      simp only [reduceCtorEq, exists_false, false_iff] at hs ⊢
      rintro ⟨⟨s, h1, h2⟩, h3⟩
      cases h1
      exact hs ⟨h2, h3⟩

/-- **C87.** Static systems never conflict with the times of a manager, a system with times does not conflict with a manager without. -/
theorem C87_no_conflict {S : Type} [LcsLike S] (m : Csm N S D) (s : S) (h : LcsLike.isTimeDependent s = false ∨ m.lcsTimeDependent = []) :
    m.addCsRejected s = false := by
  rcases h with h | h <;> simp [addCsRejected, h]

theorem create_add {S E : Type} [LcsLike S] {m m' : Csm N S D} {x : Except E S} {n ref : N} {dir : Bool}
    (hc : create x n ref dir m = .ok () m') : ∃ s, x = .ok s ∧ addCs n ref s dir true m = .ok () m' := by
  cases x with
  | error e => cases hc
  | ok s =>
    refine ⟨s, rfl, ?_⟩
    simp only [create] at hc
    cases ha : addCs n ref s dir true m with
    | ok a m2 => rw [ha] at hc; cases hc; rfl
    | err e m2 => rw [ha] at hc; cases hc

/-- what `create` says about points -/
theorem create_points {E : Type} {m m' : Csm N (Frame ℝ) (List (Vec3 ℝ))} (h : Reachable m) {x : Except E (Frame ℝ)} {n ref : N}
    {dir : Bool} (hc : create x n ref dir m = .ok () m') : ∃ f, x = .ok f ∧ ∀ pts : List (Vec3 ℝ),
      m'.transformData (L := Frame ℝ) Except.ok Frame.act pts (if dir then n else ref) (if dir then ref else n) =
        .ok (pts.map f.1.toParent) := by
  obtain ⟨f, hx, ha⟩ := create_add hc
  refine ⟨f, hx, fun pts => ?_⟩
  obtain ⟨h1, -, hco⟩ := C12_add_changes_only_link (L := Frame ℝ) Except.ok h (static_coherent m) (x := f) rfl (fun _ => rfl) ha
  cases dir with
  | true =>
    simp only [Bool.and_self, if_true] at h1
    simp only [if_true, transformData, h1]
    rfl
  | false =>
    simp only [Bool.false_and, Bool.false_eq_true, if_false] at h1
    have hr : Reachable m' := by
      have := Reachable.addCs n ref f false true h
      rwa [ha] at this
    have hn : n ∈ m'.names := by
      by_contra hn
      rw [(C06_missing_and_default (L := Frame ℝ) Except.ok hr (a := n) (b := ref)).1 (.inl hn)] at h1
      cases h1
    have hre : ref ∈ m'.names := by
      by_contra hn
      rw [(C06_missing_and_default (L := Frame ℝ) Except.ok hr (a := n) (b := ref)).1 (.inr hn)] at h1
      cases h1
    obtain ⟨_, x, y, g1, g2, -, -⟩ := C07_group_laws (L := Frame ℝ) Except.ok hr hco hn hre hre
    rw [h1] at g1
    cases g1
    simp only [Bool.false_eq_true, if_false, transformData, g2, inv_inv]
    rfl

/-- **C87.** `create_cs`: points of the new system are at the given position plus multiples of the directions of the columns of the
given matrix; with `lcs_child_in_parent=False` this holds for points of the reference system in the new system. -/
theorem C87_create_cs {m m' : Csm N (Frame ℝ) (List (Vec3 ℝ))} (h : Reachable m) {n ref : N} {M : Mat3 ℝ} {T : Vec3 ℝ} {dir : Bool}
    (hc : createCs n ref (some M) (some T) dir m = .ok () m') :
    ∃ u : Fin 3 → Vec3 ℝ, (∀ j, Along (u j) fun i => M i j) ∧ ∀ pts : List (Vec3 ℝ),
      m'.transformData (L := Frame ℝ) Except.ok Frame.act pts (if dir then n else ref) (if dir then ref else n) =
        .ok (pts.map fun p => T + (p 0 • u 0 + p 1 • u 1 + p 2 • u 2)) := by
  obtain ⟨f, hf, hp⟩ := create_points h hc
  obtain ⟨h1, h2⟩ := (C87_plain M T).2 f hf
  refine ⟨f.1.axis, h2, fun pts => ?_⟩
  rw [hp]
  congr 2
  funext p i
  rw [← h1]
  simp [Lcs.toParent, Lcs.axis]

/-- **C87.** `create_cs` without orientation moves points, without coordinates it turns them about the origin. -/
theorem C87_create_parts {m m' : Csm N (Frame ℝ) (List (Vec3 ℝ))} (h : Reachable m) {n ref : N} {dir : Bool} :
    (∀ T, createCs n ref none (some T) dir m = .ok () m' → ∀ pts : List (Vec3 ℝ),
      m'.transformData (L := Frame ℝ) Except.ok Frame.act pts (if dir then n else ref) (if dir then ref else n) =
        .ok (pts.map fun p => T + p)) ∧
    ∀ o, createCs n ref o none dir m = createCs n ref o (some 0) dir m := by
  refine ⟨fun T hc pts => ?_, fun o => rfl⟩
  obtain ⟨f, hf, hp⟩ := create_points h hc
  have hk : construct (1 : Mat3 ℝ) T = .ok ⟨1, T⟩ := construct_orth (by simp) T
  rw [buildPlain, Option.getD_none, Option.getD_some, toFrame_ok hk] at hf
  cases hf
  rw [hp]
  congr 2
  funext p i
  fin_cases i <;> simp [Lcs.toParent, Matrix.one_apply]

/-- **C87.** `create_cs_from_euler`: points are turned about the axes by the given angles, then moved. -/
theorem C87_create_euler {m m' : Csm N (Frame ℝ) (List (Vec3 ℝ))} (h : Reachable m) {n ref : N} {s : Rot.Seq} {a : List ℝ}
    {degrees : Bool} {T : Option (Vec3 ℝ)} {dir : Bool} (hc : createEuler n ref s a degrees T dir m = .ok () m')
    (pts : List (Vec3 ℝ)) :
    m'.transformData (L := Frame ℝ) Except.ok Frame.act pts (if dir then n else ref) (if dir then ref else n) =
      .ok (pts.map fun p =>
        turned s.intrinsic (s.axes.zip (a.map fun v => if degrees then v * (Real.pi / 180) else v)) p + T.getD 0) := by
  obtain ⟨f, hf, hp⟩ := create_points h hc
  rw [hp]
  congr 2
  funext p
  exact (C87_euler s a degrees T).2.1 f hf p

/-- **C87.** `create_cs_from_axis_vectors`: two perpendicular axes that are not zero are always accepted (if the names are); points are
at the given position plus multiples of the directions of the axes, the third axis is the vector product of the first two. -/
theorem C87_create_axes {m m' : Csm N (Frame ℝ) (List (Vec3 ℝ))} (h : Reachable m) {n ref : N} {x y z : Option (Vec3 ℝ)} {T : Vec3 ℝ}
    {dir : Bool} (hc : createAxes n ref x y z (some T) dir m = .ok () m') :
    ∃ u : Fin 3 → Vec3 ℝ, (∀ i j, dot3 (u i) (u j) = if i = j then 1 else 0) ∧
      (∀ v, x = some v → Along (u 0) v) ∧ (∀ v, y = some v → Along (u 1) v) ∧ (∀ v, z = some v → Along (u 2) v) ∧
      (x = none ∨ y = none ∨ z = none → dot3 (u 0) (crossProduct (u 1) (u 2)) = 1) ∧ ∀ pts : List (Vec3 ℝ),
      m'.transformData (L := Frame ℝ) Except.ok Frame.act pts (if dir then n else ref) (if dir then ref else n) =
        .ok (pts.map fun p => T + (p 0 • u 0 + p 1 • u 1 + p 2 • u 2)) := by
  obtain ⟨f, hf, hp⟩ := create_points h hc
  have hb : fromAxisVectors x y z T = .ok f.1 := by
    unfold buildAxes toFrame at hf
    rw [Option.getD_some] at hf
    cases hx : fromAxisVectors x y z T with
    | error e => rw [hx] at hf; cases hf
    | ok g =>
      rw [hx] at hf
      simp only at hf
      split at hf
      · cases hf; rfl
      · cases hf
  have key : ∀ ax : Fin 3 → Vec3 ℝ, completeAxes x y z = .ok ax →
      f.1.coordinates = T ∧ ∀ j, ∃ s : ℝ, 0 < s ∧ ax j = s • f.1.axis j := fun ax hax => by
    have : fromAxisVectors x y z T = construct (Matrix.of fun i j => ax j i) T := by
      simp [fromAxisVectors, hax, bind, Except.bind]
    obtain ⟨_, r2, r3⟩ := C03_construct_result _ _ _ (this ▸ hb)
    exact ⟨r2, r3⟩
  have hu : ∀ j, dot3 (f.1.axis j) (f.1.axis j) = 1 := fun j => by simpa using f.2 j j
  obtain ⟨ax, hax⟩ : ∃ ax, completeAxes x y z = .ok ax := by
    cases hax : completeAxes x y z with
    | ok ax => exact ⟨ax, rfl⟩
    | error e => simp [fromAxisVectors, hax, bind, Except.bind] at hb
  obtain ⟨k1, k2⟩ := key ax hax
  have hpts : ∀ pts : List (Vec3 ℝ),
      m'.transformData (L := Frame ℝ) Except.ok Frame.act pts (if dir then n else ref) (if dir then ref else n) =
        .ok (pts.map fun p => T + (p 0 • f.1.axis 0 + p 1 • f.1.axis 1 + p 2 • f.1.axis 2)) := fun pts => by
    rw [hp]
    congr 2
    funext p i
    rw [← k1]
    simp [Lcs.toParent, Lcs.axis]
  have hh : f.1.handedness * f.1.handedness = 1 := (C03_handedness f.1 f.1).2.2.1 f.2
  refine ⟨f.1.axis, f.2, ?_, ?_, ?_, ?_, hpts⟩
  · rintro v rfl
    refine ⟨hu 0, ?_⟩
    cases y <;> cases z <;> simp only [completeAxes, Except.ok.injEq, reduceCtorEq] at hax <;> subst hax <;> simpa using k2 0
  · rintro v rfl
    refine ⟨hu 1, ?_⟩
    cases x <;> cases z <;> simp only [completeAxes, Except.ok.injEq, reduceCtorEq] at hax <;> subst hax <;> simpa using k2 1
  · rintro v rfl
    refine ⟨hu 2, ?_⟩
    cases x <;> cases y <;> simp only [completeAxes, Except.ok.injEq, reduceCtorEq] at hax <;> subst hax <;> simpa using k2 2
  · intro hn
    change f.1.handedness = 1
    obtain ⟨a, ha, ea⟩ := k2 0
    obtain ⟨b, hb2, eb⟩ := k2 1
    obtain ⟨c, hc2, ec⟩ := k2 2
    have hd : dot3 (ax 0) (crossProduct (ax 1) (ax 2)) = a * b * c * f.1.handedness := by
      rw [ea, eb, ec]
      simp [Lcs.handedness, dot3, crossProduct]
      ring
    have hpos : 0 ≤ dot3 (ax 0) (crossProduct (ax 1) (ax 2)) := by
      have sq : ∀ v : Vec3 ℝ, 0 ≤ dot3 v v := fun v => by simp only [dot3]; nlinarith [sq_nonneg (v 0), sq_nonneg (v 1), sq_nonneg (v 2)]
      match x, y, z, hax, hn with
      | none, some y, some z, hax, _ =>
        simp only [completeAxes, Except.ok.injEq] at hax
        subst hax
        exact sq _
      | some x, none, some z, hax, _ =>
        simp only [completeAxes, Except.ok.injEq] at hax
        subst hax
        refine (sq (crossProduct z x)).trans_eq ?_
        simp [dot3, crossProduct]
        ring
      | some x, some y, none, hax, _ =>
        simp only [completeAxes, Except.ok.injEq] at hax
        subst hax
        refine (sq (crossProduct x y)).trans_eq ?_
        simp [dot3, crossProduct]
        ring
      | some x, some y, some z, _, hn => simp at hn
    rw [hd] at hpos
    have habc : 0 < a * b * c := mul_pos (mul_pos ha hb2) hc2
    have : 0 ≤ f.1.handedness := by
      by_contra hneg
      nlinarith
    nlinarith

/-- **C87.** A new system is appended, it is a child of its reference system, and all relations between the other systems are kept. -/
theorem C87_new {E : Type} {m m' : Csm N (Frame ℝ) D} (h : Reachable m) {x : Except E (Frame ℝ)} {n ref : N} {dir : Bool}
    (hn : n ∉ m.names) (hc : create x n ref dir m = .ok () m') :
    m'.names = m.names ++ [n] ∧ m'.dataNames = m.dataNames ∧ m'.getParent n = .ok (some ref) ∧
    ∀ a ∈ m.names, ∀ b ∈ m.names, m'.getCs (L := Frame ℝ) Except.ok a (some b) = m.getCs (L := Frame ℝ) Except.ok a (some b) := by
  obtain ⟨f, -, ha⟩ := create_add hc
  exact C12_new_system (L := Frame ℝ) Except.ok h (static_coherent m) (x := f) rfl (fun _ => rfl) hn ha

/-- **C87.** If the system exists already it is moved, together with all systems whose path to the reference system passes through it:
their relation to it is kept, their relation to the reference system is the one to it combined with the new one. Names and parents stay
as they are. -/
theorem C87_existing {E : Type} {m m' : Csm N (Frame ℝ) D} (h : Reachable m) {f : Frame ℝ} {n ref : N} {dir : Bool} (hn : n ∈ m.names)
    (hc : create (.ok f : Except E (Frame ℝ)) n ref dir m = .ok () m') :
    m'.nodes = m.nodes ∧ (∀ a b, m'.Adj a b ↔ m.Adj a b) ∧ (∀ a, m'.getParent a = m.getParent a) ∧
    ∀ a p, a ∈ m.names → SimplePath m.Adj a n p → ref ∉ p → ∃ x,
      m.getCs (L := Frame ℝ) Except.ok a (some n) = .ok x ∧ m'.getCs (L := Frame ℝ) Except.ok a (some n) = .ok x ∧
      m'.getCs (L := Frame ℝ) Except.ok a (some ref) = .ok (x * if dir then f else f⁻¹) := by
  obtain ⟨f', hf, ha⟩ := create_add hc
  cases hf
  have I := h.inv
  have hr : Reachable m' := by
    have := Reachable.addCs n ref f dir true h
    rwa [ha] at this
  obtain ⟨h1, h2, hco⟩ := C12_add_changes_only_link (L := Frame ℝ) Except.ok h (static_coherent m) (x := f) rfl (fun _ => rfl) ha
  have hnr : n ∈ m'.names ∧ ref ∈ m'.names := by
    by_contra hx
    rw [(C06_missing_and_default (L := Frame ℝ) Except.ok hr (a := n) (b := ref)).1 (by tauto)] at h1
    cases h1
  have hst : m'.nodes = m.nodes ∧ m'.root = m.root ∧ ∀ a b, m'.Adj a b ↔ m.Adj a b := by
    rcases addCs_cases I n ref f dir true with ⟨h, _⟩ | ⟨h, _⟩ | ⟨_, hadj, h⟩ | ⟨_, hx, _, h⟩
    · rw [ha] at h; cases h
    · rw [ha] at h; cases h
    · rw [ha] at h
      cases h
      refine ⟨rfl, rfl, fun a b => ?_⟩
      simp only [Adj, keys_linkEdges, addDir_keys]
      constructor
      · rintro (h | h | h)
        · exact h
        · cases h; exact hadj
        · cases h; exact I.tree.symm _ _ hadj
      · exact .inl
    · exact absurd hn hx
  obtain ⟨e1, e2, e3⟩ := hst
  have e4 : ∀ a, a ∈ m'.names ↔ a ∈ m.names := fun a => by rw [names, names, e1]
  refine ⟨e1, e3, fun a => getParent_congr I hr.inv e2 e4 e3 a, fun a p hp hs hx => ?_⟩
  obtain ⟨_, x, y, g1, -, g3, g4⟩ := C07_group_laws (L := Frame ℝ) Except.ok hr hco ((e4 a).2 hp) hnr.1 hnr.2
  rw [h1] at g3
  cases g3
  refine ⟨x, ?_, g1, by simpa using g4⟩
  rw [← g1]
  exact (h2 a n p hp hn hs fun h => hx h.2).symm

/-- **C87.** Systems with times: what is built is what the manager stores, in the given direction. -/
theorem C87_supplied {S E : Type} [LcsLike S] {m m' : Csm N S D} (h : Reachable m) {x : Except E S} {n ref : N} {dir : Bool}
    (hc : create x n ref dir m = .ok () m') :
    ∃ s, x = .ok s ∧ m'.Supplied (if dir then n else ref) (if dir then ref else n) s := by
  obtain ⟨s, hx, ha⟩ := create_add hc
  refine ⟨s, hx, ?_⟩
  have I := h.inv
  have hd : addDir n ref dir true = if dir then (n, ref) else (ref, n) := by cases dir <;> rfl
  have hm : n ≠ ref ∧
      m'.edges = linkEdges m.edges (addDir n ref dir true).1 (addDir n ref dir true).2 s := by
    rcases addCs_cases I n ref s dir true with ⟨h, _⟩ | ⟨h, _⟩ | ⟨_, hadj, h⟩ | ⟨_, hx, hr, h⟩
    · rw [ha] at h; cases h
    · rw [ha] at h; cases h
    · rw [ha] at h
      cases h
      exact ⟨fun e => I.tree.irrefl n (by simpa [e] using hadj), rfl⟩
    · rw [ha] at h
      cases h
      exact ⟨fun e => hx (e ▸ hr), rfl⟩
  have hne := hm.1
  rw [Supplied, hm.2, mem_linkEdges I.edgesNodup, hd]
  refine .inr (.inl ?_)
  cases dir
  · simp [hne]
  · simp [hne.symm]

/-- **C87.** `create_cs` with one orientation and one position for each of several times: if the names fit and the manager has no other
systems with times, the stored system has the given times and values. -/
theorem C87_times {Sl : Ip.Slerp} {m : Csm N TEdge D} (h : Reachable m) (hm : m.lcsTimeDependent = []) {n ref : N} {dir : Bool}
    (hr : ref ∈ m.names) (hn : n ∈ m.names → m.Adj n ref) {lo : List (Mat3 ℝ)} {lc : List (Vec3 ℝ)} {t t' : Time} {tref : Option Int}
    (ht : t.ofTime tref = .ok t') (hne : t'.vals ≠ []) (h1 : lo.length = t'.vals.length) (h2 : lc.length = t'.vals.length) :
    ∃ m' d, create ((TLcs.construct Sl (.values lo) (.values lc) (some t) tref).map TEdge.discrete) n ref dir m = .ok () m' ∧
      m'.Supplied (if dir then n else ref) (if dir then ref else n) (.discrete d) ∧ d.clock = t'.vals ∧
      t'.referenceTime = .ok d.ref ∧ d.orient = .series lo ∧ d.coord = .series lc := by
  obtain ⟨d, hd, r1, r2, r3, r4⟩ := C71_arrays (S := Sl) ht hne h1 h2
  obtain ⟨m', hc⟩ := (C87_when h ((TLcs.construct Sl (.values lo) (.values lc) (some t) tref).map TEdge.discrete) n ref dir).1.2
    ⟨⟨.discrete d, by rw [hd]; rfl, C87_no_conflict m _ (.inr hm)⟩, hr, hn⟩
  obtain ⟨s, hs, hs'⟩ := C87_supplied h hc
  rw [hd] at hs
  cases hs
  exact ⟨m', d, hc, hs', r1, r2, r3, r4⟩

namespace CreateDemo

/-- a manager with the root `0` -/
noncomputable def start : Csm ℕ (Frame ℝ) (List (Vec3 ℝ)) := init 0 7 none

/-- `create_cs_from_euler(1, 0, "z", 90, degrees=True, coordinates=[1, 0, 0])`, then `create_cs_from_axis_vectors(2, 1, x=[2, 0, 0],
z=[0, 3, 0], lcs_child_in_parent=False)` -/
example : ∃ m₁ m₂, createEuler 1 0 ⟨false, [.z]⟩ [90] true (some ![1, 0, 0]) true start = .ok () m₁ ∧
    createAxes 2 1 (some ![2, 0, 0]) none (some ![0, 3, 0]) (some 0) false m₁ = .ok () m₂ ∧ m₂.names = [0, 1, 2] ∧
    m₁.transformData (L := Frame ℝ) Except.ok Frame.act [![1, 0, 0]] 1 0 = .ok [![1, 1, 0]] := by
  have hs : Reachable start := .init _ _ _
  have hv : (⟨false, [.z]⟩ : Rot.Seq).Valid := ⟨by simp, by simp, by simp⟩
  have e1 := (C87_euler ⟨false, [.z]⟩ [90] true (some ![1, 0, 0])).1.2 ⟨hv, rfl⟩
  obtain ⟨f, hf⟩ := e1
  obtain ⟨m₁, h1⟩ := (C87_when hs (buildEuler ⟨false, [.z]⟩ [90] true (some ![1, 0, 0])) 1 0 true).1.2
    ⟨⟨f, hf, C87_no_conflict _ _ (.inl rfl)⟩, by decide, fun h => absurd h (by decide)⟩
  have r1 : Reachable m₁ := by
    have := (C87_when hs (buildEuler ⟨false, [.z]⟩ [90] true (some ![1, 0, 0])) 1 0 true).2.2.2
    rwa [h1] at this
  have n1 := (C87_new hs (by decide) h1).1
  have n1' : m₁.names = [0, 1] := n1
  obtain ⟨-, ⟨g, hg, -⟩, -⟩ := (C87_axes 0).1 ![2, 0, 0] ![0, 3, 0] (fun h => by simpa using congrFun h 0)
    (fun h => by simpa using congrFun h 1) (by simp [dot3])
  obtain ⟨m₂, h2⟩ := (C87_when r1 (buildAxes (some ![2, 0, 0]) none (some ![0, 3, 0]) (some 0)) 2 1 false).1.2
    ⟨⟨g, hg, C87_no_conflict _ _ (.inl rfl)⟩, by rw [n1']; decide, fun h => by rw [n1'] at h; exact absurd h (by decide)⟩
  refine ⟨m₁, m₂, h1, h2, ?_, ?_⟩
  · rw [(C87_new r1 (by rw [n1']; decide) h2).1, n1']
    rfl
  · have := C87_create_euler hs h1 [![1, 0, 0]]
    simp only [if_true] at this
    rw [this]
    have e : (90 : ℝ) * (Real.pi / 180) = Real.pi / 2 := by ring
    simp [turned, rotate, e]

end CreateDemo

end Weldx.Csm
