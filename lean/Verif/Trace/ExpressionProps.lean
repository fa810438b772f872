import Verif.Trace.Expression
import Verif.MathExpr.Series
import Mathlib.Analysis.InnerProductSpace.PiL2
import Mathlib.MeasureTheory.Integral.IntervalIntegral.FundThmCalculus
import Mathlib.Analysis.Calculus.Deriv.Pow

/-!
# Segments that are described by expressions (C92)
-/

namespace Weldx.Tr

open Weldx.Me

/-! ## Specification -/

/-- `d` is the derivative of `e` by the position: it has no other symbols, and for all values of the other symbols it is the derivative
of the function of the position, and continuous -/
structure IsDeriv (e d : Expr ℝ) : Prop where
  free : ∀ s ∈ d.free, s ∈ e.free
  deriv : ∀ ρ t, HasDerivAt (fun t => value (Function.update ρ "s" t) e) (value (Function.update ρ "s" t) d) t
  cont : ∀ ρ, Continuous fun t => value (Function.update ρ "s" t) d

/-- what the constructor of `SpatialSeries` demands: the symbols of the expression are the position and the parameters, and there is a
parameter with the dimension `c` -/
structure SpatialExpr.Valid (q : SpatialExpr) : Prop where
  nodup : (Dict.keys q.params).Nodup
  pos : "s" ∉ Dict.keys q.params
  free : ∀ s, s ∈ q.expr.free ↔ s = "s" ∨ s ∈ Dict.keys q.params
  vec : ∃ k v, (k, Prm.vec v) ∈ q.params

/-- the curve in space: each component of the parameters inserted into the expression -/
noncomputable def SpatialExpr.curve (q : SpatialExpr) (t : ℝ) : Vec3 ℝ := fun i => value (q.assign i t) q.expr

/-- length of the polygon through the points at the first `n + 1` of the given positions -/
noncomputable def polygon (f : ℝ → Vec3 ℝ) (ts : ℕ → ℝ) (n : ℕ) : ℝ := ∑ k ∈ Finset.range n, norm2 (f (ts (k + 1)) - f (ts k))

/-- `L` is the length of the curve between two positions: the least upper bound of the lengths of inscribed polygons -/
def IsArcLength (f : ℝ → Vec3 ℝ) (a b L : ℝ) : Prop :=
  IsLUB {l | ∃ ts n, Monotone ts ∧ ts 0 = a ∧ ts n = b ∧ l = polygon f ts n} L

/-! ## Evaluation -/

theorem eval_value [DecidableEq ℝ] {env : List (String × Arr ℝ)} {ρ : String → ℝ} {idx : String → ℕ} (e : Expr ℝ)
    (h : ∀ s ∈ e.syms, ∀ a, Dict.get? env s = some a → a.val idx = ρ s) {r : Arr ℝ} (hr : e.eval env = .ok r) :
    r.val idx = value ρ e := by
  induction e generalizing r with
  | num k => cases hr; rfl
  | sym s =>
    simp only [Expr.eval] at hr
    split at hr
    · cases hr
    · rename_i a ha
      cases hr
      exact h s (by simp [Expr.syms]) _ ha
  | un f a ih =>
    simp only [Expr.eval] at hr
    split at hr
    · cases hr
    · rename_i x hx
      cases hr
      simp only [value, ih h hx]
  | bin f a b iha ihb =>
    simp only [Expr.eval] at hr
    split at hr
    · cases hr
    · rename_i x hx
      split at hr
      · cases hr
      · rename_i y hy
        have h1 := iha (fun s hs => h s (by simp [Expr.syms, hs])) hx
        have h2 := ihb (fun s hs => h s (by simp [Expr.syms, hs])) hy
        unfold Arr.bin at hr
        split at hr
        · cases hr
        · split at hr
          · cases hr
          · cases hr
            simp only [value, h1, h2]

theorem eval_dims [DecidableEq ℝ] {env : List (String × Arr ℝ)} (e : Expr ℝ) {r : Arr ℝ} (hr : e.eval env = .ok r) (d : String) :
    d ∈ Dict.keys r.dims ↔ ∃ s ∈ e.syms, ∃ a, Dict.get? env s = some a ∧ d ∈ Dict.keys a.dims := by
  induction e generalizing r with
  | num k => cases hr; simp [Arr.const, Expr.syms, Dict.keys]
  | sym s =>
    simp only [Expr.eval] at hr
    split at hr
    · cases hr
    · rename_i a ha
      cases hr
      simp [Expr.syms, ha]
  | un f a ih =>
    simp only [Expr.eval] at hr
    split at hr
    · cases hr
    · rename_i x hx
      cases hr
      exact (ih hx : d ∈ Dict.keys x.dims ↔ _)
  | bin f a b iha ihb =>
    simp only [Expr.eval] at hr
    split at hr
    · cases hr
    · rename_i x hx
      split at hr
      · cases hr
      · rename_i y hy
        have h1 := iha hx
        have h2 := ihb hy
        unfold Arr.bin at hr
        split at hr
        · cases hr
        · split at hr
          · cases hr
          · rename_i j hj
            cases hr
            rw [(joinLabels_mem hj).2 d, h1, h2]
            simp only [Expr.syms, List.mem_append, or_and_right, exists_or]

theorem value_congr {ρ σ : String → ℝ} (e : Expr ℝ) (h : ∀ s ∈ e.syms, ρ s = σ s) : value ρ e = value σ e := by
  induction e with
  | num k => rfl
  | sym s => exact h s (by simp [Expr.syms])
  | un f a ih => simp only [value, ih h]
  | bin f a b iha ihb =>
    simp only [value, iha fun s hs => h s (by simp [Expr.syms, hs]), ihb fun s hs => h s (by simp [Expr.syms, hs])]

theorem get_map {V W : Type} (f : V → W) (d : List (String × V)) (k : String) :
    Dict.get? (d.map fun p => (p.1, f p.2)) k = (Dict.get? d k).map f := by
  induction d with
  | nil => rfl
  | cons p t ih =>
    by_cases h : p.1 = k <;> simp_all [Dict.get?]

theorem keys_map {V W : Type} (f : V → W) (d : List (String × V)) : Dict.keys (d.map fun p => (p.1, f p.2)) = Dict.keys d := by
  simp [Dict.keys]

theorem arr_comp (p : Prm) (i : Fin 3) (x : String → ℕ) (hx : x "c" = i) : p.arr.val x = p.comp i := by
  cases p with
  | scalar y => rfl
  | vec v => simp [Prm.arr, Prm.comp, hx]

theorem assign_s (q : SpatialExpr) (i : Fin 3) (t : ℝ) : q.assign i t "s" = t := by simp [SpatialExpr.assign]

theorem assign_param {q : SpatialExpr} (i : Fin 3) (t : ℝ) {k : String} {p : Prm} (hk : k ≠ "s") (h : Dict.get? q.params k = some p) :
    q.assign i t k = p.comp i := by simp [SpatialExpr.assign, hk, h]

theorem assign_update (q : SpatialExpr) (i : Fin 3) (t u : ℝ) : q.assign i t = Function.update (q.assign i u) "s" t := by
  funext s
  by_cases h : s = "s"
  · subst h; simp [assign_s]
  · simp [SpatialExpr.assign, h]

/-- an array that holds the position, with or without a dimension of its own -/
structure PosArr (a : Arr ℝ) (t : ℝ) : Prop where
  dims : ∀ d ∈ a.dims, d = ("s", 1)
  coords : ∀ c ∈ a.coords, c = ("s", [t])
  val : ∀ idx : String → ℕ, idx "s" = 0 → a.val idx = t

theorem posArr_const (t : ℝ) : PosArr (.const t) t := ⟨by simp [Arr.const], by simp [Arr.const], fun _ _ => rfl⟩

theorem posArr_full (t : ℝ) : PosArr (Coord.full "s" (.one t)) t :=
  ⟨by simp [Coord.full, Arr.vec, Coord.values], by simp [Coord.full, Coord.values],
    fun idx h => by simp [Coord.full, Arr.vec, Coord.values, h]⟩

theorem call_spec {e : Expr ℝ} {ps : List (String × Prm)} {a : Arr ℝ} {t : ℝ} (ha : PosArr a t)
    (hf : ∀ s, s ∈ e.free ↔ s = "s" ∨ s ∈ Dict.keys ps) {ρ : Fin 3 → String → ℝ} (hs : ∀ i, ρ i "s" = t)
    (hρ : ∀ i k p, k ≠ "s" → Dict.get? ps k = some p → ρ i k = p.comp i) :
    ∃ r, e.call (("s", a) :: ps.map fun p => (p.1, p.2.arr)) = .ok r ∧ (components r = fun i => value (ρ i) e) ∧
      ("c" ∈ Dict.keys r.dims ↔ ∃ k v, k ≠ "s" ∧ Dict.get? ps k = some (.vec v)) := by
  have hget : ∀ k, Dict.get? (("s", a) :: ps.map fun p => (p.1, p.2.arr)) k =
      if k = "s" then some a else (Dict.get? ps k).map Prm.arr := by
    intro k
    by_cases hk : k = "s"
    · subst hk; simp [Dict.get?]
    · rw [if_neg hk, ← get_map]
      have : ¬ "s" = k := fun h => hk h.symm
      simp [Dict.get?, this]
  have hkeys : ∀ k, k ∈ Dict.keys (("s", a) :: ps.map fun p => (p.1, p.2.arr)) ↔ k = "s" ∨ k ∈ Dict.keys ps := by
    intro k
    rw [← keys_map Prm.arr ps]
    simp [Dict.keys]
  have hA : Agree (fun d => if d = "c" then 3 else 1) (fun d => if d = "c" then [0, 1, 2] else [t])
      (("s", a) :: ps.map fun p => (p.1, p.2.arr)) := by
    intro k b hb
    rw [hget] at hb
    split at hb
    · cases hb
      refine ⟨fun d hd => ?_, fun c hc => ?_⟩
      · rw [ha.dims d hd]; rfl
      · rw [ha.coords c hc]; rfl
    · obtain ⟨p, -, rfl⟩ := Option.map_eq_some_iff.1 hb
      cases p <;> simp [Prm.arr, Arr.const]
  obtain ⟨r, hr, -⟩ := eval_ok hA e fun s h => (hkeys s).2 ((hf s).1 (mem_free.2 h))
  refine ⟨r, ?_, ?_, ?_⟩
  · unfold Expr.call
    rw [if_pos ⟨fun s h => (hkeys s).2 ((hf s).1 h), fun s h => (hf s).2 ((hkeys s).1 h)⟩]
    exact hr
  · funext i
    refine eval_value e ?_ hr
    intro s _ b hb
    rw [hget] at hb
    split at hb
    · rename_i h
      cases hb
      rw [h, hs]
      exact ha.val _ (by simp)
    · rename_i h
      obtain ⟨p, hp, rfl⟩ := Option.map_eq_some_iff.1 hb
      rw [hρ i s p h hp]
      exact arr_comp p i _ (by simp)
  · rw [eval_dims e hr]
    constructor
    · rintro ⟨s, -, b, hb, hc⟩
      rw [hget] at hb
      split at hb
      · cases hb
        obtain ⟨d, hd, h⟩ := List.mem_map.1 hc
        rw [ha.dims d hd] at h
        exact absurd h (by decide)
      · rename_i h
        obtain ⟨p, hp, rfl⟩ := Option.map_eq_some_iff.1 hb
        cases p with
        | scalar x => simp [Prm.arr, Arr.const, Dict.keys] at hc
        | vec v => exact ⟨s, v, h, hp⟩
    · rintro ⟨k, v, hk, h⟩
      refine ⟨k, mem_free.1 ((hf k).2 (Or.inr (Dict.get?_isSome.1 ⟨_, h⟩))), (Prm.vec v).arr, ?_, ?_⟩
      · rw [hget, if_neg hk, h]; rfl
      · simp [Prm.arr, Dict.keys]

theorem numVariables_valid {q : SpatialExpr} (h : q.Valid) : q.me.numVariables = 1 := by
  have hp : q.expr.free.Perm ("s" :: Dict.keys q.params) := by
    rw [List.perm_ext_iff_of_nodup (free_nodup _) (List.nodup_cons.2 ⟨h.pos, h.nodup⟩)]
    intro s
    rw [h.free, List.mem_cons]
  have := hp.length_eq
  simp only [List.length_cons, Dict.keys, List.length_map] at this
  simp [ME.numVariables, SpatialExpr.me, this]

/-- **C92, points.** The point at a position is that of the curve: each component of the expression with the components of the
parameters inserted. -/
theorem C92_points {q : SpatialExpr} (h : q.Valid) (t : ℝ) : q.point t = .ok (q.curve t) := by
  obtain ⟨r, hr, hc, hd⟩ := call_spec (posArr_full t) h.free (ρ := fun i => q.assign i t) (fun i => assign_s q i t)
    (fun i k p hk hp => assign_param i t hk hp)
  obtain ⟨k, v, hv⟩ := h.vec
  have hk : k ≠ "s" := by
    rintro rfl
    exact h.pos (List.mem_map.2 ⟨_, hv, rfl⟩)
  have hdim := hd.2 ⟨k, v, hk, Dict.get?_of_mem h.nodup hv⟩
  have he : GS.evaluate (.expr q.me [("s", "s")]) [("s", .one t)] = .ok (.array r) := by
    have hev : q.me.evaluate (Dict.update [] [("s", Coord.full "s" (.one t))]) = .ok r := by
      rw [update_nil (by simp [Dict.keys])]
      unfold ME.evaluate
      rw [if_neg]
      · exact hr
      · simp only [SpatialExpr.me, keys_map]
        simpa [Dict.keys] using h.pos
    simp only [GS.evaluate, numVariables_valid h, List.length_cons, List.length_nil, List.map_cons, List.map_nil]
    have hso : symbolOf [("s", "s")] "s" = "s" := by simp [symbolOf]
    rw [if_pos (by norm_num), hso, hev]
  unfold SpatialExpr.point
  rw [he]
  simp only
  rw [if_pos hdim, hc]
  rfl

/-! ## Frames -/

/-- the derivative of the curve, by components -/
noncomputable def SpatialExpr.velocity (q : SpatialExpr) (d : Expr ℝ) (t : ℝ) : Vec3 ℝ := fun i => value (q.assign i t) d

theorem velocity_deriv {q : SpatialExpr} {d : Expr ℝ} (hd : IsDeriv q.expr d) (t : ℝ) (i : Fin 3) :
    HasDerivAt (fun u => q.curve u i) (q.velocity d t i) t := by
  have h := hd.deriv (q.assign i 0) t
  simp only [← assign_update] at h
  exact h

theorem velocity_cont {q : SpatialExpr} {d : Expr ℝ} (hd : IsDeriv q.expr d) (i : Fin 3) : Continuous fun t => q.velocity d t i := by
  have h := hd.cont (q.assign i 0)
  simp only [← assign_update] at h
  exact h

theorem derivative_ok {q : SpatialExpr} (h : q.Valid) (d : Expr ℝ) :
    q.derivative d = .ok ⟨d, (q.params.filter fun p => p.1 ∈ d.free).map fun p => (p.1, p.2.arr)⟩ := by
  have hn : (Dict.keys (q.params.filter fun p => decide (p.1 ∈ d.free))).Nodup := by
    rw [Dict.keys_filter (p := fun k => decide (k ∈ d.free))]
    exact h.nodup.filter _
  have hc : Converted ((q.params.filter fun p => p.1 ∈ d.free).map fun p => (p.1, Arg.arr p.2.arr))
      ((q.params.filter fun p => p.1 ∈ d.free).map fun p => (p.1, p.2.arr)) := by
    unfold Converted
    rw [List.forall₂_map_left_iff, List.forall₂_map_right_iff]
    exact List.forall₂_same.2 fun p _ => ⟨rfl, rfl⟩
  unfold SpatialExpr.derivative ME.create
  rw [setParameters_spec hc]
  · simp only
    rw [update_nil]
    rw [keys_map]
    exact hn
  · intro s hs
    rw [keys_map (fun p : Prm => Arg.arr p.arr), Dict.keys_filter (p := fun k => decide (k ∈ d.free))] at hs
    simpa using (List.mem_filter.1 hs).2

theorem kept_get {q : SpatialExpr} {d : Expr ℝ} {k : String} {p : Prm} :
    Dict.get? (q.params.filter fun p => decide (p.1 ∈ d.free)) k = some p ↔ k ∈ d.free ∧ Dict.get? q.params k = some p := by
  rw [Dict.get?_filter (p := fun k => decide (k ∈ d.free))]
  by_cases hk : k ∈ d.free <;> simp [hk]

theorem kept_keys {q : SpatialExpr} (h : q.Valid) {d : Expr ℝ} (hd : IsDeriv q.expr d) (s : String) :
    s ∈ Dict.keys (q.params.filter fun p => decide (p.1 ∈ d.free)) ↔ s ∈ d.free ∧ s ≠ "s" := by
  rw [Dict.keys_filter (p := fun k => decide (k ∈ d.free)), List.mem_filter]
  constructor
  · rintro ⟨h1, h2⟩
    exact ⟨by simpa using h2, fun e => h.pos (e ▸ h1)⟩
  · rintro ⟨h1, h2⟩
    exact ⟨((h.free s).1 (hd.free s h1)).resolve_left h2, by simpa using h1⟩

theorem tangent_spec {q : SpatialExpr} (h : q.Valid) {d : Expr ℝ} (hd : IsDeriv q.expr d) (hs : "s" ∈ d.free) (t : ℝ) :
    ∃ r : Arr ℝ, (ME.mk d ((q.params.filter fun p => decide (p.1 ∈ d.free)).map fun p => (p.1, p.2.arr))).evaluate
        [("s", .const t)] = .ok r ∧ components r = q.velocity d t ∧
      ("c" ∈ Dict.keys r.dims ↔ ∃ k v, k ∈ d.free ∧ (k, Prm.vec v) ∈ q.params) := by
  obtain ⟨r, hr, hc, hdim⟩ := call_spec (posArr_const t) (e := d) (ps := q.params.filter fun p => decide (p.1 ∈ d.free))
    (ρ := fun i => q.assign i t)
    (fun s => by
      rw [kept_keys h hd]
      by_cases e : s = "s"
      · simp [e, hs]
      · simp [e])
    (fun i => assign_s q i t) (fun i k p hk hp => assign_param i t hk (kept_get.1 hp).2)
  refine ⟨r, ?_, hc, hdim.trans ⟨?_, ?_⟩⟩
  · unfold ME.evaluate
    rw [if_neg]
    · exact hr
    · rintro ⟨s, h1, h2⟩
      simp only [Dict.keys, List.map_cons, List.map_nil, List.mem_singleton] at h1
      subst h1
      rw [keys_map] at h2
      exact ((kept_keys h hd "s").1 h2).2 rfl
  · rintro ⟨k, v, -, hk⟩
    exact ⟨k, v, (kept_get.1 hk).1, Dict.mem_of_get? (kept_get.1 hk).2⟩
  · rintro ⟨k, v, hk, hv⟩
    exact ⟨k, v, fun e => h.pos (e ▸ List.mem_map.2 ⟨_, hv, rfl⟩), kept_get.2 ⟨hk, Dict.get?_of_mem h.nodup hv⟩⟩

/-- **C92, tangents (partial).** The tangent is the derivative of the curve, provided that the derivative still depends on the position
and on a vector. -/
theorem C92_tangent_partial {q : SpatialExpr} (h : q.Valid) {d : Expr ℝ} (hd : IsDeriv q.expr d) (hs : "s" ∈ d.free)
    (hv : ∃ k v, k ∈ d.free ∧ (k, Prm.vec v) ∈ q.params) (t : ℝ) :
    ∃ x, q.tangent d t = .ok x ∧ ∀ i, HasDerivAt (fun u => q.curve u i) (x i) t := by
  obtain ⟨r, hr, hc, hdim⟩ := tangent_spec h hd hs t
  refine ⟨q.velocity d t, ?_, fun i => velocity_deriv hd t i⟩
  unfold SpatialExpr.tangent
  rw [derivative_ok h]
  simp only [hr]
  rw [if_pos (hdim.2 hv), hc]

/-- **C92, refuted.** No expression that is linear in the position has a tangent: the derivative does not have the position as
argument any more, and the evaluation raises `TypeError`. -/
theorem C92_tangent_linear {q : SpatialExpr} (h : q.Valid) {d : Expr ℝ} (hd : IsDeriv q.expr d) (hs : "s" ∉ d.free) (t : ℝ) :
    q.tangent d t = .error .typeError := by
  unfold SpatialExpr.tangent
  rw [derivative_ok h]
  have : (ME.mk d ((q.params.filter fun p => decide (p.1 ∈ d.free)).map fun p => (p.1, p.2.arr))).evaluate
      [("s", .const t)] = .error .typeError := by
    unfold ME.evaluate
    rw [if_neg]
    · unfold Expr.call
      rw [if_neg]
      rintro ⟨-, h2⟩
      exact hs (h2 "s" (by simp [Dict.keys]))
    · rintro ⟨s, h1, h2⟩
      simp only [Dict.keys, List.map_cons, List.map_nil, List.mem_singleton] at h1
      subst h1
      rw [keys_map] at h2
      exact ((kept_keys h hd "s").1 h2).2 rfl
  simp only [this]

/-- **C92, refuted.** If only numbers are left in the derivative, `transpose` raises `ValueError`. -/
theorem C92_tangent_scalar {q : SpatialExpr} (h : q.Valid) {d : Expr ℝ} (hd : IsDeriv q.expr d) (hs : "s" ∈ d.free)
    (hv : ¬ ∃ k v, k ∈ d.free ∧ (k, Prm.vec v) ∈ q.params) (t : ℝ) : q.tangent d t = .error .valueError := by
  obtain ⟨r, hr, -, hdim⟩ := tangent_spec h hd hs t
  unfold SpatialExpr.tangent
  rw [derivative_ok h]
  simp only [hr]
  rw [if_neg fun hc => hv (hdim.1 hc)]

/-- **C92, frames (partial).** Under the same condition the system at a relative position is that of the trace segment with the curve
and its derivative, so that everything about such segments holds (C58 to C60). -/
theorem C92_frame_partial {q : SpatialExpr} (h : q.Valid) {d : Expr ℝ} (hd : IsDeriv q.expr d) (hs : "s" ∈ d.free)
    (hv : ∃ k v, k ∈ d.free ∧ (k, Prm.vec v) ∈ q.params) (maxCoord L position : ℝ) (limit : Bool) :
    q.lcs d maxCoord limit position =
      ((TSeg.expr q.curve (fun t i => _root_.deriv (fun u => q.curve u i) t) maxCoord L limit).lcs position).mapError .trace := by
  obtain ⟨x, hx, hder⟩ := C92_tangent_partial h hd hs hv (position * maxCoord)
  have : x = fun i => _root_.deriv (fun u => q.curve u i) (position * maxCoord) := funext fun i => (hder i).deriv.symm
  simp only [SpatialExpr.lcs, C92_points h, hx, TSeg.lcs, this]

/-- **C92, refuted.** A segment with an expression that is linear in the position has no coordinate system at any position. -/
theorem C92_frame_linear {q : SpatialExpr} (h : q.Valid) {d : Expr ℝ} (hd : IsDeriv q.expr d) (hs : "s" ∉ d.free)
    (maxCoord position : ℝ) (limit : Bool) : q.lcs d maxCoord limit position = .error (.series .typeError) := by
  simp only [SpatialExpr.lcs, C92_points h, C92_tangent_linear h hd hs]

end Weldx.Tr
