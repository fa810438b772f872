import Verif.TimeLcs.Reverse

/-!
# Queries without a time

Source: `/repo/weldx/transformations/cs_manager.py` 1217-1222 and 1236-1237 (`get_cs` with `time=None`), 1660-1707 (`time_union`).

Simplification: the smallest reference time of all systems of the manager (1698-1703) is a parameter.
-/

namespace Weldx

open Ip Matrix

/-! ### model -/

namespace TEdge

/-- the data set of the stored system -/
def frame : TEdge → TLcs
  | discrete c => c
  | expression e _ => e.frame

end TEdge

/-- `time_union` of the systems of a path, `cs_manager.py` 1683-1707; `ref` is the reference time of 1697-1703 -/
def timeUnion (ref : Option Int) (es : List TEdge) : Except TimeError (Option Time) := do
  let ts ← es.mapM fun e => e.frame.time
  match ts.filterMap id with
  | [] => .ok none
  | l => do
    let l ← l.mapM fun t => t.ofTime ref
    .ok (some (← Time.union l))

/-- the sum along a path of systems that are taken as they are -/
noncomputable def addAll (S : Slerp) : List TEdge → TLcs → Except TimeError TLcs
  | [], acc => .ok acc
  | e :: es, acc => do addAll S es (← acc.add S e.frame)

/-- `get_cs` with `time=None`, `cs_manager.py` 1206-1246; `minRef` is the smallest reference time of all systems of the
manager. If there is no time, systems are taken as they are; expressions are not covered in this case. -/
noncomputable def getCsDefault (S : Slerp) (csmRef minRef : Option Int) (es : List TEdge) : Except TimeError TLcs := do
  match ← timeUnion (csmRef.or minRef) es with
  | some t => getCs S csmRef es t none
  | none => match es with
    | [] => .ok ⟨none, none, .static 1, .static 0⟩
    | e :: es => addAll S es e.frame

/-! ### specification -/

namespace TEdge

/-- the points in time of an edge on the clock of the manager -/
def csmClock (csmRef : Option Int) (e : TEdge) : List Int := match e.ref, csmRef with
  | none, some r => e.frame.clock.map (· + r)
  | _, _ => e.frame.clock

end TEdge

open TEdge

/-- the kinds of times fit: without reference time of the manager, all systems have one or none has -/
def Kinds (csmRef minRef : Option Int) (es : List TEdge) : Prop := csmRef = none → ∃ b, (minRef.isSome = true → b = true) ∧
  ∀ e ∈ es, e.dependent = true → e.ref.isSome = b

/-! ### theorems -/

theorem frame_time {e : TEdge} (h : e.WF) : (e.frame.times = none ∧ e.frame.time = .ok none ∧ e.frame.clock = []) ∨
    (e.frame.times ≠ none ∧ e.dependent = true ∧ e.frame.time = .ok (some ⟨e.ref.isSome, e.frame.clock, e.ref⟩) ∧ e.frame.clock ≠ [] ∧
      e.frame.clock.Pairwise (· < ·)) := by
  have hr : e.frame.ref = e.ref := by cases e <;> rfl
  cases ht : e.frame.times with
  | none => exact .inl ⟨rfl, by rw [TLcs.time, ht], by rw [TLcs.clock, ht]; rfl⟩
  | some l =>
    have hw : e.frame.WF ∧ e.frame.dependent = true := by
      cases e with
      | discrete c =>
        refine ⟨h.1, ?_⟩
        by_contra hd
        have : c.times = none := h.2 (by simpa [frame] using hd)
        simp only [frame] at ht
        rw [this] at ht; cases ht
      | expression e i =>
        have hs : e.orient.isSeries = true := by
          by_contra hs
          have : e.times = none := h.2.1 (by simpa using hs)
          simp only [frame, ELcs.frame] at ht
          rw [this] at ht; cases ht
        refine ⟨h.1 hs, ?_⟩
        simp [frame, ELcs.frame, TLcs.dependent, hs]
    obtain ⟨l', hl', h2, ha, _⟩ := hw.1.series hw.2
    rw [ht] at hl'; cases hl'
    refine .inr ⟨by simp, ?_, by rw [TLcs.time_eq ht ha, hr], ?_, TLcs.clock_asc hw.1⟩
    · cases e with
      | discrete c => exact hw.2
      | expression e i => rfl
    · rw [Ne, ← List.length_eq_zero_iff, TLcs.clock_length ht]; omega

/-- the times of a path: none if no system has times, otherwise exactly the points in time of all systems -/
theorem timeUnion_spec {csmRef minRef : Option Int} {es : List TEdge} (he : ∀ e ∈ es, e.WF) (hk : Kinds csmRef minRef es) :
    (timeUnion (csmRef.or minRef) es = .ok none ∧ ∀ e ∈ es, e.frame.times = none) ∨
    ∃ u, timeUnion (csmRef.or minRef) es = .ok (some u) ∧ u.vals.Pairwise (· < ·) ∧ u.vals ≠ [] ∧ u.ref = none ∧
      (csmRef.isSome = true → u.abs = true) ∧ (∀ e ∈ es, e.dependent = true → csmRef = none → e.ref.isSome = u.abs) ∧
      ∀ x, x ∈ u.vals ↔ ∃ e ∈ es, x ∈ e.csmClock csmRef := by
  have hmap : ∀ es : List TEdge, (∀ e ∈ es, e.WF) → es.mapM (fun e => e.frame.time) =
      .ok (es.map fun e => if e.frame.times = none then none else some ⟨e.ref.isSome, e.frame.clock, e.ref⟩) := by
    intro es
    induction es with
    | nil => intro _; rfl
    | cons e es ih =>
      intro h
      rw [List.mapM_cons, ih fun e' h' => h e' (by simp [h'])]
      rcases frame_time (h e (by simp)) with ⟨h1, h2, _⟩ | ⟨h1, _, h2, _⟩
      · simp [h1, h2, bind, Except.bind, pure, Except.pure]
      · simp [h1, h2, bind, Except.bind, pure, Except.pure]
  set ref := csmRef.or minRef with href
  -- the systems with times
  set l := es.filter fun e => e.frame.times.isSome with hl
  have hfm : (es.map fun e => if e.frame.times = none then none else
      some (⟨e.ref.isSome, e.frame.clock, e.ref⟩ : Time)).filterMap id = l.map fun e => ⟨e.ref.isSome, e.frame.clock, e.ref⟩ := by
    rw [hl]
    clear hl he hk l
    induction es with
    | nil => rfl
    | cons e es ih =>
      cases ht : e.frame.times with
      | none => simp only [List.map_cons, ht, List.filter_cons]; simpa using ih
      | some t => simp only [List.map_cons, ht, List.filter_cons]; simpa using ih
  have hmem : ∀ e, e ∈ l ↔ e ∈ es ∧ e.frame.times ≠ none := by
    intro e; rw [hl, List.mem_filter, Option.isSome_iff_ne_none]
  have hun : timeUnion ref es = (match l.map fun e => (⟨e.ref.isSome, e.frame.clock, e.ref⟩ : Time) with
      | [] => .ok none
      | l => do
        let l ← l.mapM fun t => t.ofTime ref
        .ok (some (← Time.union l))) := by
    simp only [timeUnion, hmap es he, bind, Except.bind, hfm]
  -- each time with the reference time
  have hof : ∀ e ∈ l, ∃ t, Time.ofTime ⟨e.ref.isSome, e.frame.clock, e.ref⟩ ref = .ok t ∧ t.vals = e.csmClock csmRef ∧ t.Valid ∧
      t.vals.Nodup ∧ (csmRef.isSome = true → t.abs = true) ∧ (csmRef = none → t.abs = e.ref.isSome) := by
    intro e hel
    obtain ⟨h1, h2⟩ := (hmem e).1 hel
    rcases frame_time (he e h1) with ⟨h, _⟩ | ⟨_, hd, _, _, ha⟩
    · exact absurd h h2
    have hmk : Time.ofTime ⟨e.ref.isSome, e.frame.clock, e.ref⟩ ref = Time.make e.ref.isSome e.frame.clock (ref.or e.ref) := by
      unfold Time.ofTime; cases ref <;> rfl
    cases hr : e.ref with
    | some a =>
      refine ⟨⟨true, e.frame.clock, ref.or (some a)⟩, ?_, by simp [csmClock, hr], ⟨ha.imp fun h => h.le, by simp⟩,
        ha.imp fun h => h.ne, fun _ => rfl, fun _ => rfl⟩
      rw [hr] at hmk
      rw [hmk]
      cases ref <;> simp [Time.make, monotonic_of_strict ha]
    | none =>
      cases hc : csmRef with
      | some r =>
        have hrr : ref = some r := by rw [href, hc]; rfl
        have ha' : (e.frame.clock.map (· + r)).Pairwise (· < ·) := by
          rw [List.pairwise_map]
          exact ha.imp fun h => by simpa using h
        refine ⟨⟨true, e.frame.clock.map (· + r), some r⟩, ?_, by simp [csmClock, hr], ⟨ha'.imp fun h => h.le, by simp⟩,
          ha'.imp fun h => h.ne, fun _ => rfl, by simp⟩
        rw [hr] at hmk
        rw [hmk, hrr]
        simp [Time.make, monotonic_of_strict ha']
      | none =>
        obtain ⟨b, b1, b2⟩ := hk hc
        have hb : b = false := by rw [← b2 e h1 hd, hr]; rfl
        have hmin : minRef = none := by
          cases hm : minRef with
          | none => rfl
          | some m => rw [hm] at b1; rw [b1 rfl] at hb; cases hb
        have hrr : ref = none := by rw [href, hc, hmin]; rfl
        refine ⟨⟨false, e.frame.clock, none⟩, ?_, by simp [csmClock, hr], ⟨ha.imp fun h => h.le, by simp⟩,
          ha.imp fun h => h.ne, by simp, fun _ => rfl⟩
        rw [hr] at hmk
        rw [hmk, hrr]
        simp [Time.make, monotonic_of_strict ha]
  have hlist : ∀ l' : List TEdge, (∀ e ∈ l', e ∈ l) → ∃ ts : List Time,
      (l'.map fun e => (⟨e.ref.isSome, e.frame.clock, e.ref⟩ : Time)).mapM (fun t => t.ofTime ref) = .ok ts ∧
      List.Forall₂ (fun e t => t.vals = e.csmClock csmRef ∧ t.Valid ∧ t.vals.Nodup ∧ (csmRef.isSome = true → t.abs = true) ∧
        (csmRef = none → t.abs = e.ref.isSome)) l' ts := by
    intro l'
    induction l' with
    | nil => intro _; exact ⟨[], rfl, .nil⟩
    | cons e l' ih =>
      intro h
      obtain ⟨ts, h1, h2⟩ := ih fun e' h' => h e' (by simp [h'])
      obtain ⟨t, t1, t2⟩ := hof e (h e (by simp))
      refine ⟨t :: ts, ?_, .cons t2 h2⟩
      rw [List.map_cons, List.mapM_cons, h1, t1]; rfl
  cases hcase : l with
  | nil =>
    left
    refine ⟨by rw [hun, hcase]; rfl, fun e hel => ?_⟩
    by_contra h
    have := (hmem e).2 ⟨hel, h⟩
    rw [hcase] at this; cases this
  | cons e0 l0 =>
    right
    obtain ⟨ts, t1, t2⟩ := hlist l fun e h => h
    have hne : ts ≠ [] := by
      rintro rfl
      rw [hcase] at t2; cases t2
    have hback : ∀ t ∈ ts, ∃ e ∈ l, t.vals = e.csmClock csmRef ∧ t.Valid ∧ t.vals.Nodup ∧ (csmRef.isSome = true → t.abs = true) ∧
        (csmRef = none → t.abs = e.ref.isSome) := by
      intro t ht
      obtain ⟨k, hk⟩ := List.getElem?_of_mem ht
      obtain ⟨e, he, hp⟩ := TLcs.forall₂_get' t2 hk
      exact ⟨e, List.mem_of_getElem? he, hp⟩
    have hforth : ∀ e ∈ l, ∃ t ∈ ts, t.vals = e.csmClock csmRef := by
      intro e hel
      obtain ⟨k, hk⟩ := List.getElem?_of_mem hel
      obtain ⟨t, ht, hp⟩ := TLcs.forall₂_get t2 hk
      exact ⟨t, List.mem_of_getElem? ht, hp.1⟩
    -- the common kind
    obtain ⟨b, hb1, hb2, hb3⟩ : ∃ b, (∀ t ∈ ts, t.abs = b) ∧ (csmRef.isSome = true → b = true) ∧
        (csmRef = none → ∀ e ∈ es, e.dependent = true → e.ref.isSome = b) := by
      cases hc : csmRef with
      | some r =>
        refine ⟨true, fun t ht => ?_, fun _ => rfl, by simp⟩
        obtain ⟨e, _, _, _, _, h, _⟩ := hback t ht
        exact h (by rw [hc]; rfl)
      | none =>
        obtain ⟨b, _, b2⟩ := hk hc
        refine ⟨b, fun t ht => ?_, by simp, fun _ => b2⟩
        obtain ⟨e, hel, _, _, _, _, h⟩ := hback t ht
        obtain ⟨h1, h2⟩ := (hmem e).1 hel
        rcases frame_time (he e h1) with ⟨h', _⟩ | ⟨_, hd, _⟩
        · exact absurd h' h2
        · rw [h hc]; exact b2 e h1 hd
    have hval : ∀ t ∈ ts, t.Valid ∧ t.abs = b := fun t ht => by
      obtain ⟨e, _, _, h, _⟩ := hback t ht
      exact ⟨h, hb1 t ht⟩
    obtain ⟨u, hu, _, huabs, huref, _⟩ := Time.C24_union hne hval
    obtain ⟨u1, _, u3⟩ := Time.C24_union_values hval hu
    refine ⟨u, ?_, u3 fun t ht => (hback t ht).elim fun e h => h.2.2.2.1, ?_, huref, fun h => huabs.trans (hb2 h),
      fun e h1 h2 h3 => (hb3 h3 e h1 h2).trans huabs.symm, fun x => ?_⟩
    · rw [hun, hcase]
      rw [hcase] at t1
      simp only [List.map_cons] at t1 ⊢
      simp only [t1, bind, Except.bind, hu]
    · obtain ⟨t, ht, hv⟩ := hforth e0 (by rw [hcase]; simp)
      obtain ⟨h1, h2⟩ := (hmem e0).1 (by rw [hcase]; simp)
      rcases frame_time (he e0 h1) with ⟨h', _⟩ | ⟨_, _, _, hne', _⟩
      · exact absurd h' h2
      · have : e0.csmClock csmRef ≠ [] := by
          unfold csmClock
          split
          · simpa using hne'
          · exact hne'
        obtain ⟨a, ha⟩ := List.exists_mem_of_ne_nil _ this
        exact List.ne_nil_of_mem ((u1 a).2 ⟨t, ht, hv ▸ ha⟩)
    · rw [u1]
      constructor
      · rintro ⟨t, ht, hx⟩
        obtain ⟨e, hel, hv, _⟩ := hback t ht
        exact ⟨e, ((hmem e).1 hel).1, hv ▸ hx⟩
      · rintro ⟨e, hes, hx⟩
        have : e ∈ l := by
          refine (hmem e).2 ⟨hes, fun h => ?_⟩
          rcases frame_time (he e hes) with ⟨_, _, h'⟩ | ⟨h', _⟩
          · unfold csmClock at hx
            rw [h'] at hx
            split at hx <;> simp at hx
          · exact h' h
        obtain ⟨t, ht, hv⟩ := hforth e this
        exact ⟨t, ht, hv ▸ hx⟩

/-- **C62** without a time: the result has exactly the points in time of all systems of the path (if it is time dependent) and
at each of them it is the composition of the systems of the path at this point in time. -/
theorem C62_default {S : Slerp} (hS : SlerpOk S) {csmRef minRef : Option Int} {es : List TEdge} (he : ∀ e ∈ es, e.WF)
    (hk : Kinds csmRef minRef es) (hne : ∃ e ∈ es, e.frame.times ≠ none) :
    ∃ s, getCsDefault S csmRef minRef es = .ok s ∧ s.WF ∧
      (s.dependent = true → s.clock.Pairwise (· < ·) ∧ ∀ x, x ∈ s.clock ↔ ∃ e ∈ es, x ∈ e.csmClock csmRef) ∧
      ∀ x, (∃ e ∈ es, x ∈ e.csmClock csmRef) → ∀ fs, List.Forall₂ (fun e g => e.AtCsm S csmRef x g) es fs →
        ∃ f, s.At S x f ∧ ∀ p, f.toParent p = along fs p := by
  rcases timeUnion_spec he hk with ⟨_, h⟩ | ⟨u, hu, u1, u2, u3, u4, u5, u6⟩
  · obtain ⟨e, h1, h2⟩ := hne
    exact absurd (h e h1) h2
  have hof : u.ofTime (none.or csmRef) = .ok ⟨u.abs, u.vals, (none.or csmRef).or u.ref⟩ := by
    refine ofTime_again _ u1 fun h => ?_
    rw [u3]
    cases hc : csmRef with
    | none => rfl
    | some r => rw [u4 (by rw [hc]; rfl)] at h; cases h
  obtain ⟨s, hs, sw, sc, sat⟩ := C62_get_cs hS hof u1 u2 (es := es) fun e h => ⟨he e h, u5 e h⟩
  refine ⟨s, by simp only [getCsDefault, hu, bind, Except.bind, hs], sw, fun hd => ?_, fun x hx => sat x ((u6 x).2 hx)⟩
  rw [sc hd]
  exact ⟨u1, u6⟩

/-- **C62** for static systems: the composition of the systems -/
theorem C62_static {S : Slerp} {csmRef minRef : Option Int} {es : List TLcs} (he : ∀ e ∈ es, e.WF ∧ e.times = none) :
    ∃ s, getCsDefault S csmRef minRef (es.map .discrete) = .ok s ∧ s.dependent = false ∧
      ∀ x fs, List.Forall₂ (fun e g => TLcs.At S e x g) es fs → ∃ f, s.At S x f ∧ ∀ p, f.toParent p = along fs p := by
  have hstat : ∀ e ∈ es, e.dependent = false := by
    intro e h
    by_contra hd
    exact TLcs.times_some (he e h).1 (by simpa using hd) (he e h).2
  have hw : ∀ e ∈ es.map TEdge.discrete, e.WF := by
    intro e hmem
    obtain ⟨c, hc, rfl⟩ := List.mem_map.1 hmem
    exact ⟨(he c hc).1, fun _ => (he c hc).2⟩
  have hk : Kinds csmRef minRef (es.map TEdge.discrete) := by
    intro _
    refine ⟨true, fun _ => rfl, fun e hmem hd => ?_⟩
    obtain ⟨c, hc, rfl⟩ := List.mem_map.1 hmem
    rw [show (TEdge.discrete c).dependent = c.dependent from rfl, hstat c hc] at hd
    cases hd
  have hun : timeUnion (csmRef.or minRef) (es.map .discrete) = .ok none := by
    rcases timeUnion_spec hw hk with h | ⟨u, _, _, h, _, _, _, h6⟩
    · exact h.1
    · obtain ⟨x, hx⟩ := List.exists_mem_of_ne_nil _ h
      obtain ⟨e, hmem, hx⟩ := (h6 x).1 hx
      obtain ⟨c, hc, rfl⟩ := List.mem_map.1 hmem
      have : c.clock = [] := by rw [TLcs.clock, (he c hc).2]; rfl
      unfold csmClock frame at hx
      simp only [this] at hx
      split at hx <;> simp at hx
  clear hw hk
  have hadd : ∀ es : List TLcs, (∀ e ∈ es, e.WF ∧ e.dependent = false) → ∀ acc : TLcs, acc.WF → acc.dependent = false →
      ∃ s, addAll S (es.map .discrete) acc = .ok s ∧ s.dependent = false ∧ ∀ x f fs, acc.At S x f →
        List.Forall₂ (fun e g => TLcs.At S e x g) es fs → s.At S x (fs.foldl Lcs.add f) := by
    intro es
    induction es with
    | nil => intro _ acc _ h; exact ⟨acc, rfl, h, fun x f fs hf h => by cases h; exact hf⟩
    | cons e es ih =>
      intro h acc aw ad
      obtain ⟨s, hs, sw, sd, sat⟩ := add_static (S := S) aw (h e (by simp)).1 ad (h e (by simp)).2
      obtain ⟨u, hu, ud, uat⟩ := ih (fun e' h' => h e' (by simp [h'])) s sw sd
      refine ⟨u, by simp only [List.map_cons, addAll, frame, hs, bind, Except.bind, hu], ud, fun x f fs hf hfs => ?_⟩
      cases hfs with
      | @cons _ g _ gs hg hgs => exact uat x _ gs (sat x x x f g hf hg) hgs
  match es, he, hstat with
  | [], _, _ =>
    refine ⟨⟨none, none, .static 1, .static 0⟩, by simp only [getCsDefault, hun, bind, Except.bind]; rfl, rfl, ?_⟩
    intro x fs hfs
    cases hfs
    exact ⟨Lcs.default, ⟨.static, .static⟩, fun p => (C01_default_neutral (Lcs.default : Lcs ℝ) p).1⟩
  | e :: es, he, hstat =>
    obtain ⟨s, hs, sd, sat⟩ := hadd es (fun e' h => ⟨(he e' (by simp [h])).1, hstat e' (by simp [h])⟩) e (he e (by simp)).1
      (hstat e (by simp))
    refine ⟨s, by simp only [getCsDefault, hun, bind, Except.bind]; simp only [List.map_cons, frame, hs], sd, ?_⟩
    intro x fs hfs
    cases hfs with
    | @cons _ g _ gs hg hgs => exact ⟨_, sat x g gs hg hgs, fun p => along_foldl g gs p⟩

end Weldx
