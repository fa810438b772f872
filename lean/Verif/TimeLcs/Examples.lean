import Verif.TimeLcs.Default

/-!
# Instances of the theorems on time dependent systems
-/

namespace Weldx

open Ip Matrix

/-- an interpolation of rotations that fulfils the assumptions -/
noncomputable def jump : Slerp := open Classical in fun A B w => if w = 1 then B else A

theorem jump_ok : SlerpOk jump :=
  ⟨fun a b _ _ => by simp [jump], fun a b _ _ => by simp [jump], fun a b w ha hb => by unfold jump; split_ifs <;> assumption⟩

/-- a system that turns and moves, with a reference time -/
def mover (r : Int) : TLcs := ⟨some [0, 10], some r, .series [1, !![-1, 0, 0; 0, -1, 0; 0, 0, 1]], .series [![0, 0, 0], ![4, 2, 0]]⟩

theorem mover_wf (r : Int) : (mover r).WF := by
  refine ⟨fun _ => ⟨[0, 10], rfl, by simp, by simp, rfl, rfl⟩, fun h => by simp [mover, TLcs.dependent, Comp.isSeries] at h,
    by simp [mover], ?_⟩
  intro v hv
  simp only [List.mem_cons, List.not_mem_nil, or_false] at hv
  rcases hv with rfl | rfl
  · exact Rotation.one
  · exact halfTurn_rot

theorem mover_clock (r : Int) : (mover r).clock = [0 + r, 10 + r] := rfl

/-- a static system -/
def shifted : TLcs := ⟨none, none, .static 1, .static ![1, 2, 3]⟩

theorem shifted_wf : shifted.WF :=
  ⟨by simp [shifted, TLcs.dependent, Comp.isSeries], by simp [shifted], by simp [shifted], Rotation.one⟩

/-- a system with an expression -/
noncomputable def ramp : ELcs := ⟨none, none, .static 1, fun t => ![(t : ℝ), 0, 0]⟩

theorem ramp_wf (i : Bool) : (TEdge.expression ramp i).WF :=
  ⟨by simp [ramp, Comp.isSeries], by simp [ramp], Rotation.one⟩

/-- C20: at the second time the mover is at the second position -/
example {f : Lcs ℝ} (hf : (mover 5).At jump 15 f) : f.coordinates = ![4, 2, 0] := by
  have := (TLcs.C20_exact jump_ok (mover_wf 5) (i := 1) (by simp [mover_clock]) hf).2 _ rfl
  simpa using this.symm

/-- C20: before the first time it is at the first position -/
example {f g : Lcs ℝ} (hf : (mover 5).At jump 2 f) (hg : (mover 5).At jump 5 g) : f = g :=
  TLcs.C20_clamped jump_ok (mover_wf 5) hf hg (.inl ⟨by simp [mover_clock], by norm_num⟩)

/-- C20: in between the first coordinate is between 0 and 4 -/
example {f : Lcs ℝ} (hf : (mover 5).At jump 8 f) : 0 ≤ f.coordinates 0 ∧ f.coordinates 0 ≤ 4 := by
  obtain ⟨p, q, hp, hq, h⟩ := (TLcs.C20_between jump_ok (mover_wf 5) (i := 0) (a := 5) (b := 15) (by simp [mover_clock])
    (by simp [mover_clock]) (by norm_num) (by norm_num) hf).1 _ rfl
  simp only [List.getElem?_cons_zero, List.getElem?_cons_succ, Option.some.injEq, zero_add] at hp hq
  subst hp hq
  simpa using h 0

/-- C20: `interp_time` at three times inside -/
example : ∃ r, (mover 5).interpTime jump (some ⟨true, [6, 8, 20], none⟩) none = .ok r ∧ r.dependent = true := by
  obtain ⟨r, h1, _, h3, _⟩ := TLcs.C20_interp_time jump_ok (mover_wf 5) rfl (t := ⟨true, [6, 8, 20], none⟩)
    (t' := ⟨true, [6, 8, 20], none⟩) (tref := none) (by simp [Time.ofTime, Time.make, Time.monotonic]) (by simp) (by simp) rfl
  exact ⟨r, h1, h3.2 ⟨by decide, by simp⟩⟩

/-- C21: a new reference time -/
example : ((mover 5).reset 3).ref = some 3 ∧ ((mover 5).reset 3).clock = [5, 15] := by
  obtain ⟨h1, h2, _⟩ := TLcs.C21_absolute (S := jump) (mover_wf 5) 3 (by simp [mover])
  exact ⟨h1, h2⟩

/-- C22: both systems move, with different reference times -/
example : ∃ s, (mover 5).add jump (mover 3) = .ok s ∧ s.clock = [5, 15] ∧ s.ref = some 3 := by
  obtain ⟨s, h1, _, _, h4, _⟩ := TLcs.C22_left jump_ok (mover_wf 5) (mover_wf 3) (by simp [mover]) (by simp [mover])
    (by simp [mover])
  obtain ⟨c1, c2, c3⟩ := h4 rfl
  refine ⟨s, h1, c1, ?_⟩
  cases hr : s.ref with
  | none => rw [hr] at c2; cases c2
  | some a =>
    obtain ⟨h | h, h5, h6⟩ := c3 a hr
    · have := h6 3 rfl
      simp only [mover, Option.some.injEq] at h
      omega
    · simpa [mover] using h.symm

/-- C22: the left system is static -/
example : ∃ s, shifted.add jump (mover 3) = .ok s ∧ s.clock = [3, 13] := by
  obtain ⟨s, h1, _, _, h4, _⟩ := TLcs.C22_right jump_ok shifted_wf (mover_wf 3) rfl
  exact ⟨s, h1, h4⟩

/-- the path of the following examples: a mover with reference time, a static system and an expression used in the reverse
direction, which counts from the reference time of the manager -/
noncomputable def mixedPath : List TEdge := [.discrete (mover 5), .discrete shifted, .expression ramp true]

theorem mixedPath_wf : ∀ e ∈ mixedPath, e.WF := by
  intro e he
  simp only [mixedPath, List.mem_cons, List.not_mem_nil, or_false] at he
  rcases he with rfl | rfl | rfl
  · exact ⟨mover_wf 5, by simp [mover, TLcs.dependent, Comp.isSeries]⟩
  · exact ⟨shifted_wf, fun _ => rfl⟩
  · exact ramp_wf true

/-- C62 with times -/
example : ∃ s, getCs jump (some 4) mixedPath ⟨true, [6, 8, 20], none⟩ none = .ok s ∧ s.WF := by
  obtain ⟨s, h1, h2, _⟩ := C62_get_cs jump_ok (csmRef := some 4) (timeRef := none) (time := ⟨true, [6, 8, 20], none⟩)
    (t := ⟨true, [6, 8, 20], some 4⟩) (by simp [Time.ofTime, Time.make, Time.monotonic]) (by simp) (by simp)
    (fun e he => ⟨mixedPath_wf e he, by simp⟩)
  exact ⟨s, h1, h2⟩

/-- C62 without times: the union of the times of the path -/
example : ∃ s, getCsDefault jump (some 4) none mixedPath = .ok s ∧ s.WF := by
  obtain ⟨s, h1, h2, _⟩ := C62_default jump_ok (csmRef := some 4) (minRef := none) mixedPath_wf (by simp [Kinds])
    ⟨.discrete (mover 5), by simp [mixedPath], by simp [TEdge.frame, mover]⟩
  exact ⟨s, h1, h2⟩

/-- C23: at a time of the mover both directions are inverse -/
example : ∃ s s', getCs jump (some 4) mixedPath ⟨true, [15, 20], none⟩ none = .ok s ∧
    getCs jump (some 4) (reversePath mixedPath) ⟨true, [15, 20], none⟩ none = .ok s' ∧
    ∃ f, s.At jump 15 f ∧ s'.At jump 15 f.invert := by
  obtain ⟨s, s', h1, h2, h3⟩ := C23_path_partial jump_ok (csmRef := some 4) (timeRef := none) (time := ⟨true, [15, 20], none⟩)
    (t := ⟨true, [15, 20], some 4⟩) (by simp [Time.ofTime, Time.make, Time.monotonic]) (by simp) (by simp)
    (fun e he => ⟨mixedPath_wf e he, by simp⟩)
  obtain ⟨f, _, h4, h5⟩ := h3 15 (by simp) (by
    intro e he
    simp only [mixedPath, List.mem_cons, List.not_mem_nil, or_false] at he
    rcases he with rfl | rfl | rfl
    · exact .inr (.inl (by simp [mover_clock]))
    · exact .inl rfl
    · trivial)
  exact ⟨s, s', h1, h2, f, h4, h5⟩

end Weldx
