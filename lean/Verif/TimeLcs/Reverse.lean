import Verif.TimeLcs.QueryProps

/-!
# Queries in both directions
-/

namespace Weldx

open Ip Matrix

namespace TEdge

/-! ### specification -/

/-- times of the clock of an edge at which both directions are inverse to each other: any time if the coordinates are an
expression or the orientation is static, otherwise the times of the system and those before the first and after the last -/
def Exact (e : TEdge) (x : Int) : Prop := match e with
  | expression _ _ => True
  | discrete c => c.orient.isSeries = false ∨ x ∈ c.clock ∨ (∀ a ∈ c.clock, x ≤ a) ∨ (∀ a ∈ c.clock, a ≤ x)

/-- the same for times of the manager -/
def ExactCsm (csmRef : Option Int) (e : TEdge) (t : Int) : Prop := match e.ref, csmRef with
  | none, some r => e.Exact (t - r)
  | _, _ => e.Exact t

/-! ### one edge -/

theorem reverse_ref (e : TEdge) : e.reverse.ref = e.ref := by cases e <;> rfl

theorem reverse_dependent (e : TEdge) : e.reverse.dependent = e.dependent := by
  cases e with
  | discrete c => exact TLcs.invert_dep c
  | expression e i => rfl

theorem reverse_wf {e : TEdge} (h : e.WF) : e.reverse.WF := by
  cases e with
  | discrete c => exact ⟨TLcs.invert_wf h.1, fun hd => h.2 (by rw [← TLcs.invert_dep]; exact hd)⟩
  | expression e i => exact h

theorem At_rotation {S : Slerp} (hS : SlerpOk S) {e : TEdge} (h : e.WF) {t : Int} {f : Lcs ℝ} (hf : e.At S t f) :
    Rotation f.orientation := by
  cases e with
  | discrete c => exact TLcs.At_rotation hS h.1 hf
  | expression e i =>
    obtain ⟨g, hg, _, rfl⟩ := hf
    have := compAt_good hS h.2.2 hg
    cases i with
    | false => exact this
    | true => exact this.transpose

theorem At_exists (S : Slerp) {e : TEdge} (h : e.WF) (t : Int) : ∃ f, e.At S t f := by
  cases e with
  | discrete c => exact TLcs.At_exists S h.1 t
  | expression e i =>
    obtain ⟨A, hA⟩ : ∃ A, CompAt S e.frame.clock e.orient t A := by
      cases ho : e.orient with
      | static R => exact ⟨R, .static⟩
      | series l =>
        have hser : e.orient.isSeries = true := by rw [ho]; rfl
        obtain ⟨f, hf, _⟩ := TLcs.At_exists S (h.1 hser) t
        have : e.frame.orient = .series l := ho
        rw [this] at hf
        exact ⟨_, hf⟩
    exact ⟨_, ⟨A, e.expr (t - e.ref.getD 0)⟩, hA, rfl, rfl⟩

theorem Rotation.orthonormal {f : Lcs ℝ} (h : Rotation f.orientation) : f.Orthonormal := (Lcs.orthonormal_iff' f).2 h.1

/-- the value in the other direction -/
theorem reverse_at {S : Slerp} (hS : SlerpOk S) {e : TEdge} (h : e.WF) {t : Int} {f : Lcs ℝ} (hf : e.At S t f)
    (hx : e.Exact t) : e.reverse.At S t f.invert := by
  cases e with
  | expression e i =>
    obtain ⟨g, hg, hc, rfl⟩ := hf
    refine ⟨g, hg, hc, ?_⟩
    cases i with
    | false => simp
    | true =>
      simp only [if_true, Bool.not_true, Bool.false_eq_true, if_false]
      exact C02_invert_invert g (Rotation.orthonormal (compAt_good hS h.2.2 hg))
  | discrete c =>
    by_cases hd : c.dependent = true
    · obtain ⟨l, hl, h2, _⟩ := h.1.series hd
      have hlen : c.clock.length = l.length := TLcs.clock_length hl
      have hasc := TLcs.clock_asc h.1
      have h0 : 0 < c.clock.length := by omega
      rcases hx with hx | hx | hx | hx
      · cases ho : c.orient with
        | static R => exact TLcs.invert_static_orientation ho hf
        | series l => rw [ho] at hx; cases hx
      · exact TLcs.invert_sample hS h.1 hx hf
      · have hh : c.clock.head? = some c.clock[0] := by rw [List.head?_eq_getElem?, List.getElem?_eq_getElem h0]
        obtain ⟨g, hg⟩ := TLcs.At_exists S h.1 c.clock[0]
        obtain ⟨k, hk⟩ := TLcs.At_exists S (TLcs.invert_wf h.1) t
        have e1 := TLcs.C20_clamped hS h.1 hf hg (.inl ⟨hh, hx _ (List.getElem_mem h0)⟩)
        have e2 := TLcs.C20_clamped hS (TLcs.invert_wf h.1) hk (TLcs.invert_sample hS h.1 (List.getElem_mem h0) hg)
          (.inl ⟨hh, hx _ (List.getElem_mem h0)⟩)
        rw [e1, ← e2]; exact hk
      · have hl' : c.clock.length - 1 < c.clock.length := by omega
        have hh : c.clock.getLast? = some c.clock[c.clock.length - 1] := by
          rw [List.getLast?_eq_getElem?, List.getElem?_eq_getElem hl']
        obtain ⟨g, hg⟩ := TLcs.At_exists S h.1 c.clock[c.clock.length - 1]
        obtain ⟨k, hk⟩ := TLcs.At_exists S (TLcs.invert_wf h.1) t
        have e1 := TLcs.C20_clamped hS h.1 hf hg (.inr ⟨hh, hx _ (List.getElem_mem hl')⟩)
        have e2 := TLcs.C20_clamped hS (TLcs.invert_wf h.1) hk (TLcs.invert_sample hS h.1 (List.getElem_mem hl') hg)
          (.inr ⟨hh, hx _ (List.getElem_mem hl')⟩)
        rw [e1, ← e2]; exact hk
    · obtain ⟨g, hg, _⟩ := TLcs.At_static (S := S) (by simpa using hd)
      exact TLcs.invert_static_orientation hg hf

theorem csm_cases (csmRef : Option Int) (e : TEdge) (t : Int) : ∃ x, (∀ S f, e.AtCsm S csmRef t f ↔ e.At S x f) ∧
    (e.ExactCsm csmRef t ↔ e.Exact x) ∧ (∀ S f, e.reverse.AtCsm S csmRef t f ↔ e.reverse.At S x f) := by
  simp only [AtCsm, ExactCsm, reverse_ref]
  cases e.ref with
  | some a => exact ⟨t, fun _ _ => Iff.rfl, Iff.rfl, fun _ _ => Iff.rfl⟩
  | none => cases csmRef with
    | none => exact ⟨t, fun _ _ => Iff.rfl, Iff.rfl, fun _ _ => Iff.rfl⟩
    | some r => exact ⟨t - r, fun _ _ => Iff.rfl, Iff.rfl, fun _ _ => Iff.rfl⟩

end TEdge

open TEdge

/-! ### paths -/

/-- the path in the other direction -/
noncomputable def reversePath (es : List TEdge) : List TEdge := (es.map TEdge.reverse).reverse

theorem path_values {S : Slerp} (hS : SlerpOk S) (csmRef : Option Int) (x : Int) : ∀ {es : List TEdge}, (∀ e ∈ es, e.WF) →
    (∀ e ∈ es, e.ExactCsm csmRef x) → ∃ fs : List (Lcs ℝ), List.Forall₂ (fun e g => e.AtCsm S csmRef x g) es fs ∧
      List.Forall₂ (fun e g => e.AtCsm S csmRef x g) (es.map TEdge.reverse) (fs.map Lcs.invert) ∧ ∀ f ∈ fs, f.Orthonormal
  | [], _, _ => ⟨[], .nil, .nil, by simp⟩
  | e :: es, hw, hx => by
    obtain ⟨fs, h1, h2, h3⟩ := path_values hS csmRef x (es := es) (fun e h => hw e (by simp [h])) (fun e h => hx e (by simp [h]))
    obtain ⟨y, y1, y2, y3⟩ := csm_cases csmRef e x
    obtain ⟨f, hf⟩ := At_exists S (hw e (by simp)) y
    have hr := reverse_at hS (hw e (by simp)) hf (y2.1 (hx e (by simp)))
    refine ⟨f :: fs, .cons ((y1 S f).2 hf) h1, .cons ((y3 S _).2 hr) h2, ?_⟩
    intro g hg
    rcases List.mem_cons.1 hg with rfl | hg
    · exact Rotation.orthonormal (At_rotation hS (hw e (by simp)) hf)
    · exact h3 g hg

theorem along_append (a b : List (Lcs ℝ)) (p : Vec3 ℝ) : along (a ++ b) p = along b (along a p) := by
  simp [along]

theorem along_reverse : ∀ {fs : List (Lcs ℝ)}, (∀ f ∈ fs, f.Orthonormal) → ∀ p,
    along (fs.map Lcs.invert).reverse (along fs p) = p
  | [], _, _ => rfl
  | f :: fs, h, p => by
    have ih := along_reverse (fs := fs) (fun g hg => h g (by simp [hg])) (f.toParent p)
    simp only [List.map_cons, List.reverse_cons]
    rw [along_append]
    have : along (f :: fs) p = along fs (f.toParent p) := rfl
    rw [this, ih]
    exact (C02_invert_inverse f (h f (by simp)) p).1

theorem forall₂_reverse {A B : Type} {R : A → B → Prop} {l : List A} {m : List B} (h : List.Forall₂ R l m) :
    List.Forall₂ R l.reverse m.reverse := by
  induction h with
  | nil => exact .nil
  | cons h _ ih =>
    simp only [List.reverse_cons]
    exact List.rel_append ih (.cons h .nil)

/-- **C23** for paths: at the times at which all edges are exact both directions are inverse to each other. For other times
the statement is wrong, see `C23_counterexample`. -/
theorem C23_path_partial {S : Slerp} (hS : SlerpOk S) {csmRef timeRef : Option Int} {time t : Time}
    (ht : time.ofTime (timeRef.or csmRef) = .ok t) (hta : t.vals.Pairwise (· < ·)) (hne : t.vals ≠ []) {es : List TEdge}
    (he : ∀ e ∈ es, e.WF ∧ (e.dependent = true → csmRef = none → e.ref.isSome = t.abs)) :
    ∃ s s', getCs S csmRef es time timeRef = .ok s ∧ getCs S csmRef (reversePath es) time timeRef = .ok s' ∧
      ∀ x ∈ t.vals, (∀ e ∈ es, e.ExactCsm csmRef x) → ∃ f, f.Orthonormal ∧ s.At S x f ∧ s'.At S x f.invert := by
  obtain ⟨s, hs, sw, _, sat⟩ := C62_get_cs hS ht hta hne he
  have he' : ∀ e ∈ reversePath es, e.WF ∧ (e.dependent = true → csmRef = none → e.ref.isSome = t.abs) := by
    intro e hmem
    simp only [reversePath, List.mem_reverse, List.mem_map] at hmem
    obtain ⟨e, hmem, rfl⟩ := hmem
    refine ⟨reverse_wf (he e hmem).1, fun h1 h2 => ?_⟩
    rw [reverse_ref]
    exact (he e hmem).2 (by rw [← reverse_dependent]; exact h1) h2
  obtain ⟨s', hs', sw', _, sat'⟩ := C62_get_cs hS ht hta hne he'
  refine ⟨s, s', hs, hs', fun x hx hex => ?_⟩
  obtain ⟨fs, f1, f2, f3⟩ := path_values hS csmRef x (fun e h => (he e h).1) hex
  obtain ⟨f, hf, fp⟩ := sat x hx fs f1
  obtain ⟨g, hg, gp⟩ := sat' x hx _ (forall₂_reverse f2)
  have hfo : f.Orthonormal := Rotation.orthonormal (TLcs.At_rotation hS sw hf)
  refine ⟨f, hfo, hf, ?_⟩
  have : f.invert = g := by
    apply Lcs.ext_toParent
    intro q
    have e1 : ∀ p, g.toParent (f.toParent p) = p := fun p => by
      rw [gp, fp]; exact along_reverse f3 p
    have e2 := (C02_invert_inverse f hfo q).2.1
    rw [← e1 (f.invert.toParent q), e2]
  rw [this]; exact hg

/-! ### the general statement is wrong -/

/-- half a turn about the z-axis within two nanoseconds around a fixed point beside the origin -/
def halfTurn : TLcs := ⟨some [0, 2], none, .series [1, !![-1, 0, 0; 0, -1, 0; 0, 0, 1]], .static ![1, 0, 0]⟩

theorem halfTurn_rot : Rotation !![-1, 0, 0; 0, -1, 0; 0, 0, (1 : ℝ)] := by
  constructor
  · ext i j
    fin_cases i <;> fin_cases j <;> simp [Matrix.mul_apply, Fin.sum_univ_three, Matrix.transpose_apply]
  · simp [Matrix.det_fin_three]

theorem halfTurn_wf : halfTurn.WF := by
  refine ⟨fun _ => ⟨[0, 2], rfl, by simp, by simp, rfl, trivial⟩, fun h => by simp [halfTurn, TLcs.dependent, Comp.isSeries] at h,
    by simp [halfTurn], ?_⟩
  intro v hv
  simp only [List.mem_cons, List.not_mem_nil, or_false] at hv
  rcases hv with rfl | rfl
  · exact Rotation.one
  · exact halfTurn_rot

/-- Whatever the interpolation of rotations is: half way, the stored system of the other direction has its origin at the one of
the first, although the systems are one unit apart. -/
theorem C23_counterexample {S : Slerp} (hS : SlerpOk S) : halfTurn.WF ∧ ∀ f g, halfTurn.At S 1 f →
    (TEdge.discrete halfTurn).reverse.At S 1 g → f.coordinates = ![1, 0, 0] ∧ g.coordinates = 0 ∧ g ≠ f.invert := by
  refine ⟨halfTurn_wf, ?_⟩
  intro f g hf hg
  have hR := TLcs.At_rotation hS halfTurn_wf hf
  have hfc : f.coordinates = ![1, 0, 0] := by
    have := hf.2
    generalize f.coordinates = v at this ⊢
    simp only [halfTurn] at this
    cases this; rfl
  have hgc : g.coordinates = 0 := by
    have hg2 : CompAt linMix (halfTurn.invert).clock (.series [-![1, 0, 0], ![1, 0, 0]]) 1 g.coordinates := by
      have := hg.2
      have e : halfTurn.invert.coord = .series [-![1, 0, 0], ![1, 0, 0]] := by
        simp only [TLcs.invert, halfTurn, Comp.map₂, List.map_cons, List.map_nil]
        congr 2
        · simp
        · congr 1
          ext i
          fin_cases i <;> simp [Matrix.mulVec, dotProduct, Fin.sum_univ_three, Matrix.transpose_apply]
      rw [e] at this
      exact this
    have hv : CompAt linMix (halfTurn.invert).clock (.series [-![1, 0, 0], ![1, 0, 0]]) 1 (0 : Vec3 ℝ) := by
      refine .series ?_
      have := Value.between (mix := linMix) (s := halfTurn.invert.clock.zip [-![1, 0, 0], ![1, 0, 0]]) (t := 1) (i := 0)
        (p := (0, -![1, 0, (0 : ℝ)])) (q := (2, ![1, 0, 0])) (by simp [TLcs.clock, TLcs.invert, halfTurn])
        (by simp [TLcs.clock, TLcs.invert, halfTurn]) (by simp) (by simp)
      have e : linMix (-![1, 0, (0 : ℝ)]) ![1, 0, 0] (((1 : ℤ) - (0 : ℤ) : ℝ) / ((2 : ℤ) - (0 : ℤ))) = (0 : Vec3 ℝ) := by
        ext i
        fin_cases i <;> simp [linMix] <;> norm_num
      rw [← e]
      exact this
    exact compAt_unique linMix_ok (TLcs.clock_asc (TLcs.invert_wf halfTurn_wf)) (TLcs.coord_all _) hg2 hv
  refine ⟨hfc, hgc, ?_⟩
  intro hgf
  rw [hgf] at hgc
  -- the inverse has its origin at the distance one
  have : f.orientation *ᵥ f.invert.coordinates = -![1, 0, 0] := by
    simp only [Lcs.invert, hfc, Matrix.mulVec_mulVec, hR.1, Matrix.one_mulVec]
  rw [hgc, Matrix.mulVec_zero] at this
  have := congrFun this 0
  simp at this

end Weldx
