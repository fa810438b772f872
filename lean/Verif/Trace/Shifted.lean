import Verif.Trace.ArcLength

/-!
# Translations of segments that are described by expressions, and the radial segment (C92)
-/

namespace Weldx.Tr

open Weldx.Me

/-! ## Names -/

theorem prefix_toList : "translation".toList = ['t', 'r', 'a', 'n', 's', 'l', 'a', 't', 'i', 'o', 'n'] := by decide +kernel

theorem zero_toList : "translation_0".toList = ['t', 'r', 'a', 'n', 's', 'l', 'a', 't', 'i', 'o', 'n', '_', '0'] := by decide +kernel

theorem name_succ (n : ℕ) : (translationName (n + 1)).toList =
    ['t', 'r', 'a', 'n', 's', 'l', 'a', 't', 'i', 'o', 'n'] ++ Nat.toDigits 10 (n + 1) := by
  rw [translationName, String.toList_append, prefix_toList, Nat.toList_repr]

theorem name_zero_succ (n : ℕ) : translationName 0 ≠ translationName (n + 1) := by
  intro h
  have h := congrArg String.toList h
  rw [name_succ, show translationName 0 = "translation_0" from rfl, zero_toList] at h
  simp only [List.cons_append, List.nil_append, List.cons.injEq, true_and] at h
  exact Nat.underscore_not_in_toDigits (n := n + 1) (h ▸ List.mem_cons_self)

theorem name_injective : Function.Injective translationName := by
  intro a b h
  cases a with
  | zero => cases b with
    | zero => rfl
    | succ b => exact absurd h (name_zero_succ b)
  | succ a => cases b with
    | zero => exact absurd h.symm (name_zero_succ a)
    | succ b =>
      have h := congrArg String.toList h
      rw [name_succ, name_succ] at h
      have h := congrArg (fun l => Nat.ofDigitChars 10 l 0) (List.append_cancel_left h)
      simpa only [Nat.ofDigitChars_ten_toDigits] using h

theorem name_ne_s (n : ℕ) : translationName n ≠ "s" := by
  intro h
  have h := congrArg String.toList h
  have hs : "s".toList = ['s'] := by decide +kernel
  cases n with
  | zero => rw [show translationName 0 = "translation_0" from rfl, zero_toList, hs] at h; simp at h
  | succ n => rw [name_succ, hs] at h; simp at h

theorem fresh_is_name (used : List String) (n k : ℕ) : ∃ m, freshName used n k = translationName m := by
  induction k generalizing n with
  | zero => exact ⟨n, rfl⟩
  | succ k ih =>
    unfold freshName
    split
    · exact ih (n + 1)
    · exact ⟨n, rfl⟩

theorem fresh_or (used : List String) (n k : ℕ) :
    freshName used n k ∉ used ∨ ∀ j, n ≤ j → j ≤ n + k → translationName j ∈ used := by
  induction k generalizing n with
  | zero =>
    by_cases h : translationName n ∈ used
    · exact Or.inr fun j h1 h2 => by rwa [show j = n by omega]
    · exact Or.inl h
  | succ k ih =>
    unfold freshName
    split
    · rename_i h
      refine (ih (n + 1)).imp id fun h' j h1 h2 => ?_
      by_cases e : j = n
      · rwa [e]
      · exact h' j (by omega) (by omega)
    · rename_i h
      exact Or.inl h

/-- the loop ends with a name that is not in use -/
theorem fresh_not_mem (used : List String) : freshName used 0 used.length ∉ used := by
  rcases fresh_or used 0 used.length with h | h
  · exact h
  · exfalso
    have h1 : (Finset.range (used.length + 1)).image translationName ⊆ used.toFinset := by
      intro s hs
      obtain ⟨j, hj, rfl⟩ := Finset.mem_image.1 hs
      exact List.mem_toFinset.2 (h j (Nat.zero_le j) (by have := Finset.mem_range.1 hj; omega))
    have h2 := Finset.card_le_card h1
    rw [Finset.card_image_of_injective _ name_injective, Finset.card_range] at h2
    have := used.toFinset_card_le
    omega

/-! ## Translations -/

/-- the name of the parameter that a translation adds -/
def SpatialExpr.fresh (q : SpatialExpr) : String := freshName (Dict.keys q.params) 0 q.params.length

theorem fresh_free (q : SpatialExpr) : q.fresh ∉ Dict.keys q.params := by
  have := fresh_not_mem (Dict.keys q.params)
  rwa [show (Dict.keys q.params).length = q.params.length by simp [Dict.keys]] at this

theorem fresh_ne_s (q : SpatialExpr) : q.fresh ≠ "s" := by
  obtain ⟨m, h⟩ := fresh_is_name (Dict.keys q.params) 0 q.params.length
  rw [SpatialExpr.fresh, h]
  exact name_ne_s m

theorem fresh_not_free {q : SpatialExpr} (h : q.Valid) : q.fresh ∉ q.expr.free := by
  rw [h.free]
  exact not_or.2 ⟨fresh_ne_s q, fresh_free q⟩

theorem translate_valid {q : SpatialExpr} (h : q.Valid) (v : Vec3 ℝ) : (q.translate v).Valid where
  nodup := Dict.nodup_keys_set h.nodup
  pos := fun hs => (Dict.mem_keys_set.1 hs).elim h.pos fun e => fresh_ne_s q e.symm
  free := fun s => by
    have hf := h.free s
    rw [mem_free] at hf
    rw [mem_free]
    simp only [SpatialExpr.translate, Expr.syms, List.mem_append, List.mem_singleton, Dict.mem_keys_set, hf, or_assoc]
  vec := ⟨q.fresh, v, (Dict.mem_set h.nodup).2 (Or.inl ⟨rfl, rfl⟩)⟩

theorem translate_assign (q : SpatialExpr) (v : Vec3 ℝ) (i : Fin 3) (t : ℝ) {s : String} (hs : s ≠ q.fresh) :
    (q.translate v).assign i t s = q.assign i t s := by
  have : Dict.get? (q.translate v).params s = Dict.get? q.params s := by
    simp only [SpatialExpr.translate, Dict.get?_set]
    exact if_neg hs
  simp only [SpatialExpr.assign, this]

theorem translate_fresh (q : SpatialExpr) (v : Vec3 ℝ) (i : Fin 3) (t : ℝ) : (q.translate v).assign i t q.fresh = v i := by
  refine assign_param (p := .vec v) i t (fresh_ne_s q) ?_
  simp only [SpatialExpr.translate, Dict.get?_set]
  exact if_pos rfl

theorem translate_curve {q : SpatialExpr} (h : q.Valid) (v : Vec3 ℝ) (t : ℝ) : (q.translate v).curve t = q.curve t + v := by
  funext i
  have h1 : value ((q.translate v).assign i t) q.expr = value (q.assign i t) q.expr :=
    value_congr _ fun s hs => translate_assign q v i t fun e => fresh_not_free h (e ▸ mem_free.2 hs)
  have h2 := translate_fresh q v i t
  change value ((q.translate v).assign i t) q.expr + (q.translate v).assign i t q.fresh = _
  rw [h1, h2]
  rfl

/-- **C92, translations.** A translation shifts all points by the vector. -/
theorem C92_translate {q : SpatialExpr} (h : q.Valid) (v : Vec3 ℝ) (t : ℝ) :
    (q.translate v).Valid ∧ (q.translate v).point t = .ok (q.curve t + v) :=
  ⟨translate_valid h v, by rw [C92_points (translate_valid h v), translate_curve h]⟩

theorem translate_all {q : SpatialExpr} (h : q.Valid) (vs : List (Vec3 ℝ)) :
    (vs.foldl SpatialExpr.translate q).Valid ∧ ∀ t, (vs.foldl SpatialExpr.translate q).curve t = q.curve t + vs.sum := by
  induction vs generalizing q with
  | nil => exact ⟨h, fun t => by simp⟩
  | cons v vs ih =>
    obtain ⟨h1, h2⟩ := ih (translate_valid h v)
    exact ⟨h1, fun t => by rw [List.foldl_cons, h2, translate_curve h, List.sum_cons, add_assoc]⟩

/-- **C92, repeated translations.** Any number of translations shifts the points by the sum of the vectors. -/
theorem C92_translate_many {q : SpatialExpr} (h : q.Valid) (vs : List (Vec3 ℝ)) (t : ℝ) :
    (vs.foldl SpatialExpr.translate q).point t = .ok (q.curve t + vs.sum) := by
  obtain ⟨h1, h2⟩ := translate_all h vs
  rw [C92_points h1, h2]

/-- **C92, lengths after translations.** The derivative stays the same, and so do the lengths, which are not calculated again. -/
theorem C92_translate_length {q : SpatialExpr} (h : q.Valid) {d : Expr ℝ} (hd : IsDeriv q.expr d) (v : Vec3 ℝ) (T : ℝ) :
    IsDeriv (q.translate v).expr d ∧ (q.translate v).lengthTo d T = q.lengthTo d T := by
  have hn : ∀ s ∈ d.syms, s ≠ q.fresh := fun s hs e => fresh_not_free h (e ▸ hd.free s (mem_free.2 hs))
  refine ⟨⟨fun s hs => ?_, fun ρ t => ?_, hd.cont⟩, ?_⟩
  · have := mem_free.1 (hd.free s hs)
    exact mem_free.2 (List.mem_append_left _ this)
  · have hc : (fun t => value (Function.update ρ "s" t) (q.translate v).expr) =
        fun t => value (Function.update ρ "s" t) q.expr + ρ q.fresh := by
      funext t
      change _ + Function.update ρ "s" t q.fresh = _
      rw [Function.update_of_ne (fresh_ne_s q)]
    rw [hc]
    exact (hd.deriv ρ t).add_const _
  · have (i : Fin 3) (t : ℝ) : value ((q.translate v).assign i t) d = value (q.assign i t) d :=
      value_congr _ fun s hs => translate_assign q v i t (hn s hs)
    simp only [SpatialExpr.lengthTo, this]

/-- **C92, refuted.** `apply_translation` changes the dictionary of the series that the segment was made from: the points of this
series, and of all other segments that were made from it, can not be determined any more. -/
theorem C92_shared_series {q : SpatialExpr} (h : q.Valid) (v : Vec3 ℝ) (t : ℝ) : (q.leftover v).point t = .error .valueError := by
  have hl : (q.leftover v).params.length = q.params.length + 1 := by
    simp only [SpatialExpr.leftover]
    change (Dict.set q.params q.fresh (Prm.vec v)).length = _
    rw [Dict.set_of_not_mem (fresh_free q)]
    simp
  have hnum := numVariables_valid h
  simp only [ME.numVariables, SpatialExpr.me, List.length_map] at hnum
  have h0 : (q.leftover v).me.numVariables = 0 := by
    simp only [ME.numVariables, SpatialExpr.me, List.length_map, hl]
    change (q.expr.free.length : ℤ) - _ = 0
    push_cast
    omega
  have hso : symbolOf [("s", "s")] "s" = "s" := by simp [symbolOf]
  have hs : "s" ∈ (q.leftover v).me.expr.free := (h.free "s").2 (Or.inl rfl)
  have he : GS.evaluate (.expr (q.leftover v).me [("s", "s")]) [("s", .one t)] = .error .valueError := by
    simp only [GS.evaluate, h0, List.length_cons, List.length_nil, List.map_cons, List.map_nil]
    rw [if_neg (by norm_num), hso]
    simp only [fixAll, Coord.partial, ME.setParameters, hs, not_true_eq_false, if_false, Arg.toArr]
  unfold SpatialExpr.point
  rw [he]

/-- **C92.** The spoiled series has no coordinate system at any position, with the same exception. -/
theorem C92_shared_frame {q : SpatialExpr} (h : q.Valid) (v : Vec3 ℝ) (d : Expr ℝ) (maxCoord position : ℝ) (limit : Bool) :
    (q.leftover v).lcs d maxCoord limit position = .error (.series .valueError) := by
  simp only [SpatialExpr.lcs, C92_shared_series h]

theorem minus_one_ne : (-1 : ℝ) ≠ 1 := by norm_num

theorem zero_plus (b : Sym) : (Sym.num 0).plus b = b := by simp [Sym.plus]

theorem plus_zero (a : Sym) : a.plus (.num 0) = a := by
  unfold Sym.plus
  split
  · rename_i h; exact h.symm
  · simp

theorem plus_other {a b : Sym} (ha : a ≠ .num 0) (hb : b ≠ .num 0) : a.plus b = .add a b := by simp [Sym.plus, ha, hb]

theorem zero_times (b : Sym) : (Sym.num 0).times b = .num 0 := by simp [Sym.times]

theorem times_zero (a : Sym) : a.times (.num 0) = .num 0 := by simp [Sym.times]

theorem times_one (a : Sym) : a.times (.num 1) = a := by
  unfold Sym.times
  split
  · rename_i h
    rcases h with h | h
    · exact h.symm
    · simp at h
  · split
    · rename_i h; exact h.symm
    · simp

theorem times_other {a b : Sym} (ha : a ≠ .num 0) (hb : b ≠ .num 0) (ha' : a ≠ .num 1) (hb' : b ≠ .num 1) : a.times b = .mul a b := by
  simp [Sym.times, ha, hb, ha', hb']

/-! ## The radial segment -/

/-- the expression `(x*sin(s)+w*y*(cos(s)-1))*r`, `geometry.py` 1679 -/
noncomputable def radialSym : Sym :=
  .mul (.add (.mul (.sym "x") (.sin (.sym "s"))) (.mul (.mul (.sym "w") (.sym "y")) (.add (.cos (.sym "s")) (.num (-1))))) (.sym "r")

/-- the series of a radial segment, `geometry.py` 1678-1686 -/
noncomputable def radialSeries (r w : ℝ) : SpatialExpr :=
  ⟨radialSym.expr, [("x", .vec ![1, 0, 0]), ("y", .vec ![0, 1, 0]), ("r", .scalar r), ("w", .scalar w)]⟩

theorem radial_valid (r w : ℝ) : (radialSeries r w).Valid where
  nodup := by simp [radialSeries, Dict.keys]
  pos := by simp [radialSeries, Dict.keys]
  free := fun s => by
    rw [mem_free]
    simp only [radialSeries, radialSym, Sym.expr, Expr.syms, Dict.keys, List.map_cons, List.map_nil, List.mem_append, List.mem_cons,
      List.not_mem_nil, or_false]
    tauto
  vec := ⟨"x", _, List.mem_cons_self⟩

/-- the derivative that the rules give -/
theorem radial_diff : radialSym.diff "s" =
    .mul (.add (.mul (.sym "x") (.cos (.sym "s"))) (.mul (.mul (.sym "w") (.sym "y")) (.mul (.num (-1)) (.sin (.sym "s"))))) (.sym "r") := by
  simp [minus_one_ne, radialSym, Sym.diff, zero_plus, plus_zero, plus_other, zero_times, times_zero, times_one, times_other]

theorem radial_curve (r w t : ℝ) : (radialSeries r w).curve t = radialCurve r w t := by
  funext i
  fin_cases i <;>
    simp [SpatialExpr.curve, radialSeries, radialSym, Sym.expr, value, SpatialExpr.assign, Dict.get?, Prm.comp, radialCurve] <;> ring

theorem radial_velocity (r w t : ℝ) : (radialSeries r w).velocity (radialSym.diff "s").expr t = radialDeriv r w t := by
  rw [radial_diff]
  funext i
  fin_cases i <;>
    simp [SpatialExpr.velocity, radialSeries, Sym.expr, value, SpatialExpr.assign, Dict.get?, Prm.comp, radialDeriv] <;> ring

theorem radialExpr_speed {r w : ℝ} (hr : 0 < r) (hw : w = 1 ∨ w = -1) (t : ℝ) : norm2 (radialDeriv r w t) = r := by
  have hw2 : w ^ 2 = 1 := by rcases hw with h | h <;> rw [h] <;> norm_num
  have : radialDeriv r w t 0 ^ 2 + radialDeriv r w t 1 ^ 2 + radialDeriv r w t 2 ^ 2 = r ^ 2 := by
    simp [radialDeriv]
    have := Real.sin_sq_add_cos_sq t
    linear_combination r ^ 2 * Real.sin t ^ 2 * hw2 + r ^ 2 * this
  rw [norm2, this, Real.sqrt_sq hr.le]

/-- **C92, the radial segment.** The segment made of the expression, its derivative and the integral is the radial segment of the
model: same systems, same length. -/
theorem C92_radial {radius angle : ℝ} (hr : 0 < radius) (ha : 0 < angle) (clockwise : Bool) :
    ∃ seg, radial radius angle clockwise = .ok seg ∧
      (radialSeries radius (if clockwise then 1 else -1)).sectionLength (radialSym.diff "s").expr angle = .ok seg.length ∧
      ∀ position, (radialSeries radius (if clockwise then 1 else -1)).lcs (radialSym.diff "s").expr angle false position =
        (seg.lcs position).mapError .trace := by
  set w : ℝ := if clockwise then 1 else -1 with hw
  have hw1 : w = 1 ∨ w = -1 := by rw [hw]; cases clockwise <;> simp
  have hd : IsDeriv (radialSeries radius w).expr (radialSym.diff "s").expr := C92_diff radialSym
  have hL : (radialSeries radius w).lengthTo (radialSym.diff "s").expr angle = radius * angle := by
    rw [lengthTo_eq]
    simp only [← norm2_eq, radial_velocity, radialExpr_speed hr hw1]
    simp [mul_comm]
  have hpos : ¬ radius * angle ≤ 0 := not_le.2 (mul_pos hr ha)
  refine ⟨.expr (radialCurve radius w) (radialDeriv radius w) angle (radius * angle) false, ?_, ?_, fun position => ?_⟩
  · simp only [radial, checkLength, TSeg.length, not_le.2 hr, not_le.2 ha, if_false, hpos, ← hw]
  · simp only [SpatialExpr.sectionLength, hL, hpos, if_false, TSeg.length]
  · have hs : "s" ∈ (radialSym.diff "s").expr.free := by
      rw [mem_free, radial_diff]
      simp [Sym.expr, Expr.syms]
    have hx : "x" ∈ (radialSym.diff "s").expr.free := by
      rw [mem_free, radial_diff]
      simp [Sym.expr, Expr.syms]
    rw [C92_frame_partial (radial_valid radius w) hd hs ⟨"x", _, hx, List.mem_cons_self⟩ angle (radius * angle)]
    have h1 : (radialSeries radius w).curve = radialCurve radius w := funext (radial_curve radius w)
    have h2 : (fun t i => _root_.deriv (fun u => (radialSeries radius w).curve u i) t) = radialDeriv radius w := by
      funext t i
      rw [(velocity_deriv hd t i).deriv, radial_velocity]
    rw [h2, h1]

/-! ## Examples -/

namespace ExprDemo

/-- a parabola: `a*s + b*s**2` -/
noncomputable def parabola : Sym := .add (.mul (.sym "a") (.sym "s")) (.mul (.sym "b") (.pow (.sym "s") 2))

/-- with vectors `a` and `b` -/
noncomputable def parabolaSeries : SpatialExpr := ⟨parabola.expr, [("a", .vec ![1, 0, 0]), ("b", .vec ![0, 3, 0])]⟩

theorem parabola_valid : parabolaSeries.Valid where
  nodup := by simp [parabolaSeries, Dict.keys]
  pos := by simp [parabolaSeries, Dict.keys]
  free := fun s => by
    rw [mem_free]
    simp only [parabolaSeries, parabola, Sym.expr, Expr.syms, Dict.keys, List.map_cons, List.map_nil, List.mem_append, List.mem_cons,
      List.not_mem_nil, or_false]
    tauto
  vec := ⟨"a", _, List.mem_cons_self⟩

theorem parabola_diff : parabola.diff "s" = .add (.sym "a") (.mul (.sym "b") (.mul (.num 2) (.sym "s"))) := by
  simp [minus_one_ne, parabola, Sym.diff, Sym.power, zero_plus, plus_zero, plus_other, zero_times, times_zero, times_one, times_other]

/-- all hypotheses hold for the parabola -/
example : IsDeriv parabolaSeries.expr (parabola.diff "s").expr ∧ "s" ∈ (parabola.diff "s").expr.free ∧
    ∃ k v, k ∈ (parabola.diff "s").expr.free ∧ (k, Prm.vec v) ∈ parabolaSeries.params := by
  refine ⟨C92_diff parabola, ?_, "a", _, ?_, List.mem_cons_self⟩ <;>
  · rw [mem_free, parabola_diff]
    simp [Sym.expr, Expr.syms]

/-- the hypothesis of `C92_shared_frame` -/
example : (parabolaSeries.leftover ![1, 1, 0]).lcs (parabola.diff "s").expr 2 true (1 / 2) = .error (.series .valueError) :=
  C92_shared_frame parabola_valid _ _ _ _ _

/-- its point at 2 and after two translations -/
example : parabolaSeries.point 2 = .ok ![2, 12, 0] ∧
    ((parabolaSeries.translate ![1, 1, 0]).translate ![0, 5, 0]).point 2 = .ok ![3, 18, 0] := by
  have hc : parabolaSeries.curve 2 = ![2, 12, 0] := by
    funext i
    fin_cases i <;>
      simp [SpatialExpr.curve, parabolaSeries, parabola, Sym.expr, value, SpatialExpr.assign, Dict.get?, Prm.comp] <;> norm_num
  refine ⟨by rw [C92_points parabola_valid, hc], ?_⟩
  have := C92_translate_many parabola_valid [![1, 1, 0], ![0, 5, 0]] 2
  simp only [List.foldl_cons, List.foldl_nil] at this
  rw [this, hc]
  congr 1
  funext i
  fin_cases i <;> simp <;> norm_num

/-- a straight line: `a*s` -/
noncomputable def line : Sym := .mul (.sym "a") (.sym "s")

/-- with the vector `a` -/
noncomputable def lineSeries : SpatialExpr := ⟨line.expr, [("a", .vec ![1, 0, 0])]⟩

theorem line_valid : lineSeries.Valid where
  nodup := by simp [lineSeries, Dict.keys]
  pos := by simp [lineSeries, Dict.keys]
  free := fun s => by
    rw [mem_free]
    simp only [lineSeries, line, Sym.expr, Expr.syms, Dict.keys, List.map_cons, List.map_nil, List.mem_append, List.mem_cons,
      List.not_mem_nil, or_false]
    tauto
  vec := ⟨"a", _, List.mem_cons_self⟩

/-- a bent line in the direction of the diagonal: `a + k*s**2` with the number `k` -/
noncomputable def bent : Sym := .add (.sym "a") (.mul (.sym "k") (.pow (.sym "s") 2))

/-- with the vector `a` -/
noncomputable def bentSeries : SpatialExpr := ⟨bent.expr, [("a", .vec ![1, 0, 0]), ("k", .scalar 2)]⟩

theorem bent_valid : bentSeries.Valid where
  nodup := by simp [bentSeries, Dict.keys]
  pos := by simp [bentSeries, Dict.keys]
  free := fun s => by
    rw [mem_free]
    simp only [bentSeries, bent, Sym.expr, Expr.syms, Dict.keys, List.map_cons, List.map_nil, List.mem_append, List.mem_cons,
      List.not_mem_nil, or_false]
    tauto
  vec := ⟨"a", _, List.mem_cons_self⟩

end ExprDemo

/-- **C92, refuted: witnesses.** A straight line `a*s` has points and a length but no coordinate system at any position, and the same
holds for `a + k*s**2`, with another exception. -/
theorem C92_counterexample :
    (∀ t, ExprDemo.lineSeries.point t = .ok ![t, 0, 0]) ∧
    ExprDemo.lineSeries.sectionLength (ExprDemo.line.diff "s").expr 1 = .ok 1 ∧
    (∀ limit position, ExprDemo.lineSeries.lcs (ExprDemo.line.diff "s").expr 1 limit position = .error (.series .typeError)) ∧
    (∀ limit position, ExprDemo.bentSeries.lcs (ExprDemo.bent.diff "s").expr 1 limit position = .error (.series .valueError)) := by
  have hdiff : ExprDemo.line.diff "s" = .sym "a" := by 
    simp [minus_one_ne, ExprDemo.line, Sym.diff, zero_plus, plus_zero, plus_other, zero_times, times_zero, times_one, times_other]
  have hbent : ExprDemo.bent.diff "s" = .mul (.sym "k") (.mul (.num 2) (.sym "s")) := by
    simp [minus_one_ne, ExprDemo.bent, Sym.diff, Sym.power, zero_plus, plus_zero, plus_other, zero_times, times_zero, times_one, times_other]
  refine ⟨fun t => ?_, ?_, fun limit position => ?_, fun limit position => ?_⟩
  · rw [C92_points ExprDemo.line_valid]
    congr 1
    funext i
    fin_cases i <;>
      simp [SpatialExpr.curve, ExprDemo.lineSeries, ExprDemo.line, Sym.expr, value, SpatialExpr.assign, Dict.get?, Prm.comp]
  · have : ExprDemo.lineSeries.lengthTo (ExprDemo.line.diff "s").expr 1 = 1 := by
      rw [hdiff]
      simp [SpatialExpr.lengthTo, ExprDemo.lineSeries, Sym.expr, value, SpatialExpr.assign, Dict.get?, Prm.comp]
    rw [SpatialExpr.sectionLength, this, if_neg (by norm_num)]
  · refine C92_frame_linear ExprDemo.line_valid (C92_diff ExprDemo.line) ?_ 1 position limit
    rw [mem_free, hdiff]
    simp [Sym.expr, Expr.syms]
  · have hs : "s" ∈ (ExprDemo.bent.diff "s").expr.free := by
      rw [mem_free, hbent]
      simp [Sym.expr, Expr.syms]
    have hv : ¬ ∃ k v, k ∈ (ExprDemo.bent.diff "s").expr.free ∧ (k, Prm.vec v) ∈ ExprDemo.bentSeries.params := by
      rintro ⟨k, v, hk, hm⟩
      rw [mem_free, hbent] at hk
      simp [Sym.expr, Expr.syms] at hk
      simp [ExprDemo.bentSeries] at hm
      rcases hk with rfl | rfl <;> simp at hm
    simp only [SpatialExpr.lcs, C92_points ExprDemo.bent_valid,
      C92_tangent_scalar ExprDemo.bent_valid (C92_diff ExprDemo.bent) hs hv]

end Weldx.Tr
