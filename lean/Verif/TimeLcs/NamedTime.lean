import Verif.TimeLcs.Manager

/-!
# `get_cs` with the name of a system as time (C103)

Source: `/repo/weldx/transformations/cs_manager.py` 1064-1246 (`get_cs`), 1660-1707 (`time_union`);
`/repo/weldx/transformations/local_cs.py` 613-625 (`time`).

The documentation of `get_cs` says about the parameter `time`: "You can also pass the name of another coordinate system to use its time
attribute as reference". A name is tried as a text that describes a time first.

Simplifications: as in `Verif/TimeLcs/Manager.lean`; which texts pandas reads as times, and as which, is a parameter. The time of a system
that is described by an expression is not covered, as in `getCsDefault`.
-/

set_option linter.unusedSectionVars false

namespace Weldx

open Ip Matrix Csm TLcs

theorem outside_self {l : List Int} (ha : l.Pairwise (· < ·)) (h2 : 2 ≤ l.length) : outside l l = false := by
  unfold outside
  match l, h2, ha with
  | a :: b :: l, _, ha =>
    have hab : a < b := (List.pairwise_cons.1 ha).1 b (by simp)
    obtain ⟨M, hM⟩ : ∃ M, (a :: b :: l).max? = some M := Option.isSome_iff_exists.1 (by simp)
    obtain ⟨K, hK⟩ : ∃ K, (a :: b :: l).min? = some K := Option.isSome_iff_exists.1 (by simp)
    rw [hM, hK]
    have h1 : K ≤ a := (List.min?_eq_some_iff.1 hK).2 a (by simp)
    have h2 : b ≤ M := (List.max?_eq_some_iff.1 hM).2 b (by simp)
    simp only [ge_iff_le, Bool.or_eq_false_iff, decide_eq_false_iff_not, not_le]
    omega

theorem minus_single (l : List Int) (r : Int) : Time.elementwise (· - ·) l [r] = .ok (l.map (· - r)) := by
  match l with
  | [] => rfl
  | [x] => rfl
  | x :: y :: l => rfl

/-- at its own times a system stays time dependent -/
theorem onEdge_own {S : Slerp} (hS : SlerpOk S) {csmRef tref : Option Int} {t : Time} (hq : TEdge.Query csmRef tref t) (own : Bool)
    {c : TLcs} (hc : (TEdge.discrete c).WF) (hd : c.dependent = true) (hk : csmRef = none → c.ref.isSome = t.abs)
    (hv : t.vals = (TEdge.discrete c).csmClock csmRef) :
    ∃ r, (TEdge.discrete c).onEdge S csmRef t tref own = .ok r ∧ r.dependent = true ∧ r.ref.isSome = t.abs := by
  obtain ⟨l, hl, h2, _⟩ := hc.1.series hd
  have hlen : 2 ≤ c.clock.length := by rw [TLcs.clock_length hl]; exact h2
  have hasc := TLcs.clock_asc hc.1
  simp only [TEdge.onEdge, hd, if_true]
  by_cases hcase : (TEdge.discrete c).ref = none ∧ csmRef.isSome = true
  · obtain ⟨hr, hs⟩ := hcase
    obtain ⟨r, rfl⟩ := Option.isSome_iff_exists.1 hs
    have hab := hq.csm rfl
    have hr' : c.ref = none := hr
    have hv' : t.vals = c.clock.map (· + r) := by
      rw [hv]
      unfold TEdge.csmClock
      rw [hr]
      rfl
    have hback : t.vals.map (· - r) = c.clock := by
      rw [hv', List.map_map]
      conv_rhs => rw [← List.map_id c.clock]
      exact List.map_congr_left fun x _ => by simp
    have hsub : t.sub ⟨true, [r], none⟩ = .ok ⟨false, c.clock, none⟩ := by
      have hel := minus_single t.vals r
      have h1 : Time.ofTime ⟨true, [r], none⟩ none = .ok ⟨true, [r], none⟩ := by
        simp [Time.ofTime, Time.make, Time.monotonic]
      simp only [Time.sub, h1, bind, Except.bind, hab, Bool.not_true, Bool.false_and, Bool.false_eq_true, if_false, if_true, hel,
        Time.make, Bool.and_false, hback]
      simp [monotonic_of_strict hasc]
    obtain ⟨k, hk1, _, _, hk2, _⟩ := TLcs.interpTime_spec hS hc.1 hd (t := ⟨false, c.clock, none⟩) (tref := none)
      (t' := ⟨false, c.clock, none⟩) (TEdge.ofTime_again none hasc (by simp)) hasc (by
        intro h
        have h : c.clock = [] := h
        rw [h] at hlen; simp at hlen) (by rw [hr']; rfl)
    have hkd : k.dependent = true := hk2.2 ⟨outside_self hasc hlen, hlen⟩
    unfold TEdge.onEdge.interpolated
    simp only [hr, hsub, bind, Except.bind, TEdge.interp, hk1, TEdge.rebuild, hkd, if_true]
    obtain ⟨rt, ds, d1, d2, d3, d4⟩ := deltas hq.ne
    simp only [d1, d2]
    exact ⟨_, rfl, hkd, d4⟩
  · have hkind : c.ref.isSome = t.abs := by
      cases h2 : csmRef with
      | none => exact hk h2
      | some r =>
        rw [hq.csm (by rw [h2]; rfl)]
        cases h1 : c.ref with
        | none => exact absurd ⟨h1, by rw [h2]; rfl⟩ hcase
        | some a => rfl
    have hv' : t.vals = c.clock := by
      rw [hv]
      unfold TEdge.csmClock
      cases h1 : (TEdge.discrete c).ref with
      | some a => rfl
      | none => cases h2 : csmRef with
        | none => rfl
        | some r => exact absurd ⟨h1, by rw [h2]; rfl⟩ hcase
    rw [TEdge.interpolated_eq hcase]
    set q := if own then (TEdge.discrete c).ref else tref with hqdef
    have hof := TEdge.ofTime_again (t := t) q hq.asc (by
      intro h
      rw [hq.rel h, Option.or_none, hqdef]
      cases own with
      | true =>
        rw [h] at hkind
        show c.ref = none
        simpa using hkind
      | false =>
        simp only [Bool.false_eq_true, if_false]
        cases htr : tref with
        | none => rfl
        | some r => have := hq.ref r htr; rw [hq.rel h] at this; cases this)
    obtain ⟨k, hk1, _, _, hk2, hk3, _⟩ := TLcs.interpTime_spec hS hc.1 hd hof hq.asc hq.ne hkind
    have hkd : k.dependent = true :=
      hk2.2 ⟨by rw [hv']; exact outside_self hasc hlen, by show 2 ≤ t.vals.length; rw [hv']; exact hlen⟩
    refine ⟨k, by simp only [TEdge.interp, hk1, bind, Except.bind]; rfl, hkd, ?_⟩
    obtain ⟨rt, ds, d1, d2, d3, d4⟩ := deltas (t := ⟨t.abs, t.vals, q.or t.ref⟩) hq.ne
    rw [(hk3 hkd).2] at d1
    cases d1
    exact d4

theorem eq_of_mem_iff {l k : List Int} (hl : l.Pairwise (· < ·)) (hk : k.Pairwise (· < ·)) (h : ∀ x, x ∈ l ↔ x ∈ k) : l = k := by
  have nl : l.Nodup := hl.imp fun h => ne_of_lt h
  have nk : k.Nodup := hk.imp fun h => ne_of_lt h
  exact ((List.perm_ext_iff_of_nodup nl nk).2 h).eq_of_pairwise (fun a b _ _ h1 h2 => absurd (lt_trans h1 h2) (lt_irrefl _)) hl hk

namespace Csm
variable {N D : Type} [DecidableEq N]

/-! ### model -/

/-- the reference time in `time_union`, `cs_manager.py` 1697-1703, if the manager has none -/
noncomputable def firstRef (m : Csm N UEdge D) : Option Int := (m.lcsTimeDependent.filterMap LcsLike.refTime).min?

/-- `get_cs`, `cs_manager.py` 1203-1246, for two systems without a time -/
noncomputable def getAlways (S : Slerp) (m : Csm N UEdge D) (a b : N) : Except (CsmError ⊕ TimeError) UTLcs :=
  if ¬ m.has a ∨ ¬ m.has b then .error (.inl .valueError)
  else if a = b then .ok .default
  else match m.shortestPath a b with
    | none => .error (.inl .noPath)
    | some p => match m.linksOn p with
      | none => .error (.inl .keyError)
      | some es => match getCsDefaultU S m.refTime m.firstRef es with
        | .error x => .error (.inr x)
        | .ok c => .ok c

/-- the time of a system seen from its parent, `cs_manager.py` 1227-1236 -/
noncomputable def timeOf (S : Slerp) (m : Csm N UEdge D) (n : N) : Except (CsmError ⊕ TimeError) Time := match m.getParent n with
  | .error x => .error (.inl x)
  | .ok none => .error (.inl .valueError)
  | .ok (some p) => match m.getAlways S n p with
    | .error x => .error x
    | .ok s => match s.mag.time with
      | .error x => .error (.inr x)
      | .ok none => .error (.inl .valueError)
      | .ok (some t) => .ok t

/-- `get_cs`, `cs_manager.py` 1203-1246, with a text as time. `parse` creates the `Time` object for the texts that pandas can read. -/
noncomputable def getNamed (S : Slerp) (parse : N → Option Int → Option Time) (m : Csm N UEdge D) (a b n : N) (timeRef : Option Int) :
    Except (CsmError ⊕ TimeError) UTLcs :=
  if ¬ m.has a ∨ ¬ m.has b then .error (.inl .valueError)
  else if a = b then .ok .default
  else match parse n (timeRef.or m.refTime) with
    | some t => m.getAt S a b t timeRef
    | none => match m.timeOf S n with
      | .error x => .error x
      | .ok t => m.getAt S a b t timeRef

/-! ### theorems -/

theorem mem_supplied {m : Csm N UEdge D} {e : UEdge} (h : e ∈ m.lcs) : ∃ a b, m.Supplied a b e := by
  unfold lcs at h
  rw [List.mem_filterMap] at h
  obtain ⟨⟨⟨a, b⟩, d, o⟩, h1, h2⟩ := h
  refine ⟨a, b, ?_⟩
  cases d with
  | false => simp at h2
  | true => simp at h2; subst h2; exact h1

theorem timeOf_spec {S : Slerp} (hS : SlerpOk S) {m : Csm N UEdge D} (h : Reachable m) {abs : Bool}
    (hu : ∀ a b e, m.Supplied a b e → Sound m.refTime abs e) {n p : N} {r : List N} (hp : SimplePath m.Adj n m.root (n :: p :: r))
    {u : ℝ} {c : TLcs} (hl : m.linkOn n p = some ⟨u, .discrete c⟩) (hw : Sound m.refTime abs ⟨u, .discrete c⟩) :
    (c.dependent = true → ∃ t, m.timeOf S n = .ok t ∧ t.vals = (TEdge.discrete c).csmClock m.refTime ∧ t.vals.Pairwise (· < ·) ∧
      t.vals ≠ [] ∧ t.abs = (m.refTime.isSome || abs) ∧ (t.abs = false → t.ref = none)) ∧
    (c.dependent = false → m.timeOf S n = .error (.inl .valueError)) := by
  have I := h.inv
  have hadj : m.Adj n p := by
    cases hp.1 with
    | cons h hw =>
      obtain ⟨q, hq⟩ := hw.head_eq
      cases hq
      exact h
  have hn : n ∈ m.names := I.tree.mem _ _ hadj
  have hpm : p ∈ m.names := I.tree.mem _ _ (I.tree.symm _ _ hadj)
  have hnp : n ≠ p := fun e => by
    have := hp.2
    rw [e] at this
    simp at this
  have hne : n ≠ m.root := by
    intro e
    have := hp
    rw [← e] at this
    simpa using this.refl_eq
  have par : m.getParent n = .ok (some p) := by
    simp only [getParent, if_neg hne, checkExists_ok hn, (shortestPath_iff I hn I.root_mem).2 hp]
    rfl
  have hpath : SimplePath m.Adj n p [n, p] := ⟨.cons hadj (.nil p), by simp [hnp]⟩
  have hh : ¬(¬ m.has n = true ∨ ¬ m.has p = true) := by simp [Csm.has, hn, hpm]
  have hlinks : m.linksOn [n, p] = some [⟨u, .discrete c⟩] := by simp only [linksOn, hl]
  have hget : m.getAlways S n p = match getCsDefaultU S m.refTime m.firstRef [⟨u, .discrete c⟩] with
      | .error x => .error (.inr x)
      | .ok c => .ok c := by
    unfold getAlways
    rw [if_neg hh, if_neg hnp, (shortestPath_iff I hn hpm).2 hpath]
    simp only [hlinks]
  have hcw : (TEdge.discrete c).WF := by
    have k : ((TEdge.discrete c).scale u).WF := hw.wf
    have := k.scale u⁻¹
    have e : ((TEdge.discrete c).scale u).scale u⁻¹ = .discrete c := by
      have hu : u ≠ 0 := ne_of_gt hw.unit
      simp only [TEdge.scale, TLcs.scale]
      congr 1
      cases c with
      | mk a b o v =>
        cases v with
        | static w => simp [Comp.map, smul_smul, hu]
        | series l =>
          simp only [Comp.map, List.map_map]
          congr 2
          conv_rhs => rw [← List.map_id l]
          exact List.map_congr_left fun x _ => by simp [smul_smul, hu]
    rwa [e] at this
  have hkinds : Kinds m.refTime m.firstRef [.discrete c] := by
    intro hr
    refine ⟨abs, fun hm => ?_, fun e he hd => ?_⟩
    · obtain ⟨x, hx⟩ := Option.isSome_iff_exists.1 hm
      have := List.min?_mem hx
      rw [List.mem_filterMap] at this
      obtain ⟨e, k1, k2⟩ := this
      obtain ⟨k1, k3⟩ := List.mem_filter.1 k1
      obtain ⟨a, b, hs⟩ := mem_supplied k1
      rw [← (hu a b e hs).kind k3 hr]
      show (LcsLike.refTime e).isSome = true
      rw [k2]; rfl
    · rw [List.mem_singleton] at he
      subst he
      exact hw.kind hd hr
  refine ⟨fun hd => ?_, fun hd => ?_⟩
  · rcases timeUnion_spec (es := [.discrete c]) (by simpa using hcw) hkinds with ⟨_, h1⟩ | ⟨t, t1, t2, t3, t4, t5, t6, t7⟩
    · exact absurd (h1 (.discrete c) (by simp)) (TLcs.times_some hcw.1 hd)
    · have hcl : ∀ x, x ∈ t.vals ↔ x ∈ (TEdge.discrete c).csmClock m.refTime := fun x => by rw [t7 x]; simp
      have hasc : ((TEdge.discrete c).csmClock m.refTime).Pairwise (· < ·) := by
        have := TLcs.clock_asc hcw.1
        unfold TEdge.csmClock
        split
        · rw [List.pairwise_map]
          exact this.imp fun h => by simpa using h
        · exact this
      have hv := eq_of_mem_iff t2 hasc hcl
      have hof : t.ofTime (none.or m.refTime) = .ok ⟨t.abs, t.vals, (none.or m.refTime).or t.ref⟩ := by
        refine TEdge.ofTime_again _ t2 fun h => ?_
        rw [t4]
        cases hc : m.refTime with
        | none => rfl
        | some r => rw [t5 (by rw [hc]; rfl)] at h; cases h
      set t' : Time := ⟨t.abs, t.vals, (none.or m.refTime).or t.ref⟩ with ht'
      have hq : TEdge.Query m.refTime (none.or m.refTime) t' := by
        refine ⟨t2, t3, fun r hr => by rw [ht', hr]; rfl, fun h => ?_, fun h => t5 h⟩
        show (none.or m.refTime).or t.ref = none
        rw [t4]
        cases hc : m.refTime with
        | none => rfl
        | some r =>
          have h : t.abs = false := h
          rw [t5 (by rw [hc]; rfl)] at h; cases h
      obtain ⟨s, s1, s2, s3⟩ := onEdge_own hS hq (none.or m.refTime).isNone hcw hd (fun hr => t6 (.discrete c) (by simp) hd hr) hv
      obtain ⟨s', s1', s4, _, _⟩ := TEdge.onEdge_spec hS hq (none.or m.refTime).isNone hcw (fun hd hr => t6 _ (by simp) hd hr)
      rw [s1] at s1'
      cases s1'
      have hans : m.getAlways S n p = .ok ⟨u, s⟩ := by
        rw [hget]
        simp only [getCsDefaultU, List.map_cons, List.map_nil, t1, bind, Except.bind, getCsU, hof, UEdge.onEdge, s1, Except.map]
      obtain ⟨l, l1, _, l2, _⟩ := s4.1.series s2
      have hclk : s.clock = t.vals := by
        rcases s4.2 with k | k
        · exact k.2
        · rw [s2] at k; cases k.1
      refine ⟨⟨s.ref.isSome, s.clock, s.ref⟩, ?_, hclk.trans hv, by rw [hclk]; exact t2, by rw [hclk]; exact t3, ?_, ?_⟩
      · simp only [timeOf, par, hans, TLcs.time_eq l1 l2]
      · show s.ref.isSome = _
        rw [s3]
        show t.abs = _
        cases hr : m.refTime with
        | some r => rw [t5 (by rw [hr]; rfl)]; rfl
        | none =>
          rw [← t6 _ (List.mem_singleton.2 rfl) hd hr]
          exact hw.kind hd hr
      · intro h
        simpa using h
  · have ht : c.times = none := hcw.2 hd
    have hans : m.getAlways S n p = .ok ⟨u, c⟩ := by
      rw [hget]
      rcases timeUnion_spec (es := [.discrete c]) (by simpa using hcw) hkinds with ⟨h1, _⟩ | ⟨t, t1, t2, t3, t4, t5, t6, t7⟩
      · simp only [getCsDefaultU, List.map_cons, List.map_nil, h1, bind, Except.bind, addAllU]
        rfl
      · exfalso
        apply t3
        rw [List.eq_nil_iff_forall_not_mem]
        intro x hx
        obtain ⟨e, he, hx⟩ := (t7 x).1 hx
        rw [List.mem_singleton] at he
        subst he
        have : (TEdge.discrete c).frame.clock = [] := by
          show c.clock = []
          rw [TLcs.clock, ht]; rfl
        unfold TEdge.csmClock at hx
        rw [this] at hx
        split at hx <;> simp at hx
    have : c.time = .ok none := by rw [TLcs.time, ht]
    simp only [timeOf, par, hans, this]

/-- **C103.** With the name of a system whose discrete relation to its parent depends on time, `get_cs` answers at the times of this
relation; if the answer depends on time, it has exactly these times. At each of them it is the composition of the systems on the direct path,
as for times that are given explicitly (C102). The name must not be a text that describes a time. -/
theorem C103_named_partial {S : Slerp} (hS : SlerpOk S) {parse : N → Option Int → Option Time} {m : Csm N UEdge D} (h : Reachable m) {abs : Bool}
    (hu : ∀ a b e, m.Supplied a b e → Sound m.refTime abs e) {a b : N} (ha : a ∈ m.names) (hb : b ∈ m.names) {n p : N} {r : List N}
    (hp : SimplePath m.Adj n m.root (n :: p :: r)) {e : UEdge} (he : m.Supplied n p e ∨ m.Supplied p n e) {c : TLcs} (hc : e.mag = .discrete c)
    (hd : c.dependent = true) {timeRef : Option Int} (hparse : parse n (timeRef.or m.refTime) = none)
    (htr : timeRef = none ∨ m.refTime.isSome = true ∨ abs = true) :
    ∃ s q, m.getNamed S parse a b n timeRef = .ok s ∧ SimplePath m.Adj a b q ∧
      (s.mag.dependent = true → s.mag.clock = e.mag.csmClock m.refTime) ∧ ∀ x ∈ e.mag.csmClock m.refTime,
        ∃ f, (∀ g, s.mm.At S x g ↔ g = f) ∧ (∃ F, Direct S m x q F) ∧ ∀ F, Direct S m x q F → ∀ y, f.toParent y = F y := by
  have I := h.inv
  obtain ⟨u, c', hl, hw, hd', hcl⟩ : ∃ u c', m.linkOn n p = some ⟨u, .discrete c'⟩ ∧ Sound m.refTime abs ⟨u, .discrete c'⟩ ∧
      c'.dependent = true ∧ (TEdge.discrete c').csmClock m.refTime = e.mag.csmClock m.refTime := by
    obtain ⟨u, mag⟩ := e
    dsimp only at hc
    subst hc
    rcases he with he | he
    · refine ⟨u, c, ?_, hu _ _ _ he, hd, rfl⟩
      simp only [linkOn, edge?, Dict.get?_of_mem I.edgesNodup he]
    · obtain ⟨k, hk, hq⟩ := I.paired p n _ he
      rcases hq with ⟨d, hd2, rfl⟩ | ⟨d, _, hd2⟩
      · have : (⟨u, .discrete c⟩ : UEdge) = d := by simpa using hd2
        subst this
        refine ⟨u, c.invert, ?_, sound_reverse (hu _ _ _ he), ?_, ?_⟩
        · unfold linkOn edge?
          rw [Dict.get?_of_mem I.edgesNodup hk]
          rfl
        · have := TEdge.reverse_dependent (.discrete c)
          exact this.trans hd
        · rfl
      · cases hd2
  obtain ⟨t, t1, t2, t3, t4, t5, t6⟩ := (timeOf_spec hS h hu hp hl hw).1 hd'
  have hof : t.ofTime (timeRef.or m.refTime) = .ok ⟨t.abs, t.vals, (timeRef.or m.refTime).or t.ref⟩ := by
    refine TEdge.ofTime_again _ t3 fun hab => ?_
    rw [t6 hab]
    rw [t5, Bool.or_eq_false_iff] at hab
    rcases htr with rfl | hh | hh
    · simpa using hab.1
    · rw [hh] at hab; simp at hab
    · rw [hh] at hab; simp at hab
  have hu' : ∀ a b e, m.Supplied a b e → Sound m.refTime t.abs e := fun a b e he => by
    refine ⟨(hu a b e he).wf, (hu a b e he).unit, fun hd hr => ?_⟩
    rw [(hu a b e he).kind hd hr, t5, hr]; rfl
  obtain ⟨s, q, h1, _, h2, h3, h4⟩ := C102_path hS h ha hb hof t3 t4 hu'
  refine ⟨s, q, ?_, h3, fun k => (h2 k).trans (t2.trans hcl), fun x hx => h4 x (by rw [← hcl, ← t2] at hx; exact hx)⟩
  have hh : ¬(¬ m.has a = true ∨ ¬ m.has b = true) := by simp [Csm.has, ha, hb]
  unfold getNamed
  rw [if_neg hh]
  by_cases hab : a = b
  · rw [if_pos hab]
    unfold getAt at h1
    rw [if_neg hh, if_pos hab] at h1
    exact h1
  · rw [if_neg hab]
    simp only [hparse, t1, h1]

/-- **C103.** Names that cannot be used: of systems with a constant relation to their parents, of the root, and of no system. -/
theorem C103_rejected {S : Slerp} (hS : SlerpOk S) {parse : N → Option Int → Option Time} {m : Csm N UEdge D} (h : Reachable m) {abs : Bool}
    (hu : ∀ a b e, m.Supplied a b e → Sound m.refTime abs e) {a b : N} (ha : a ∈ m.names) (hb : b ∈ m.names) (hab : a ≠ b) {n : N}
    {timeRef : Option Int} (hparse : parse n (timeRef.or m.refTime) = none) :
    (∀ p r e c, SimplePath m.Adj n m.root (n :: p :: r) → (m.Supplied n p e ∨ m.Supplied p n e) → e.mag = .discrete c →
      c.dependent = false → m.getNamed S parse a b n timeRef = .error (.inl .valueError)) ∧
    (n = m.root ∨ n ∉ m.names → m.getNamed S parse a b n timeRef = .error (.inl .valueError)) := by
  have I := h.inv
  have hh : ¬(¬ m.has a = true ∨ ¬ m.has b = true) := by simp [Csm.has, ha, hb]
  have main : m.timeOf S n = .error (.inl .valueError) → m.getNamed S parse a b n timeRef = .error (.inl .valueError) := fun k => by
    unfold getNamed
    rw [if_neg hh, if_neg hab]
    simp only [hparse, k]
  refine ⟨fun p r e c hp he hc hd => main ?_, fun hn => main ?_⟩
  · obtain ⟨u, mag⟩ := e
    dsimp only at hc
    subst hc
    rcases he with he | he
    · refine (timeOf_spec hS h hu hp (u := u) (c := c) ?_ (hu _ _ _ he)).2 hd
      simp only [linkOn, edge?, Dict.get?_of_mem I.edgesNodup he]
    · obtain ⟨k, hk, hq⟩ := I.paired p n _ he
      rcases hq with ⟨d, hd2, rfl⟩ | ⟨d, _, hd2⟩
      · have : (⟨u, .discrete c⟩ : UEdge) = d := by simpa using hd2
        subst this
        refine (timeOf_spec hS h hu hp (u := u) (c := c.invert) ?_ (sound_reverse (hu _ _ _ he))).2 ?_
        · unfold linkOn edge?
          rw [Dict.get?_of_mem I.edgesNodup hk]
          rfl
        · have := TEdge.reverse_dependent (.discrete c)
          exact this.trans hd
      · cases hd2
  · have : m.getParent n = .ok none ∨ m.getParent n = .error .valueError := by
      by_cases hr : n = m.root
      · rw [hr]; exact .inl (getParent_root m)
      · rcases hn with hn | hn
        · exact absurd hn hr
        · exact .inr (by simp [getParent, if_neg hr, checkExists, Csm.has, hn, bind, Except.bind])
    rcases this with k | k <;> simp only [timeOf, k]

/-- **C103.** If a name describes a time, it is this time that is used. -/
theorem C103_text (S : Slerp) (parse : N → Option Int → Option Time) (m : Csm N UEdge D) {a b n : N} (ha : a ∈ m.names)
    (hb : b ∈ m.names) {timeRef : Option Int} {t : Time} (hparse : parse n (timeRef.or m.refTime) = some t) (hab : a ≠ b) :
    m.getNamed S parse a b n timeRef = m.getAt S a b t timeRef := by
  have hh : ¬(¬ m.has a = true ∨ ¬ m.has b = true) := by simp [Csm.has, ha, hb]
  unfold getNamed
  rw [if_neg hh, if_neg hab]
  simp only [hparse]

open ManagerDemo

/-- the hypotheses of `C103_named_partial` -/
example : SimplePath pair.Adj 1 pair.root [1, 0] ∧ pair.Supplied 1 0 turning ∧ turning.mag = .discrete halfTurn ∧ halfTurn.dependent = true ∧
    turning.mag.csmClock pair.refTime = [0, 2] := by
  have hr : Reachable pair := .addCs _ _ _ _ _ (.init _ _ _)
  have hsup : pair.Supplied 1 0 turning := by unfold Supplied; rw [pair_edges]; simp
  exact ⟨⟨.cons ((adj_iff_supplied hr.inv).2 ⟨_, .inl hsup⟩) (.nil 0), by simp⟩, hsup, rfl, rfl, rfl⟩

/-- **C103 fails** for systems whose name describes a time: for a system with the name `"1"`, which pandas reads as a nanosecond, the answer
is constant, although the system turns. -/
theorem C103_counterexample {S : Slerp} (hS : SlerpOk S) (parse : ℕ → Option Int → Option Time) (hparse : parse 1 none = some ⟨false, [1], none⟩) :
    ∃ (m : Csm ℕ UEdge Unit) (e : UEdge), Reachable m ∧ (∀ a b e, m.Supplied a b e → Sound m.refTime false e) ∧
      SimplePath m.Adj 1 m.root [1, 0] ∧ m.Supplied 1 0 e ∧ e.mag.csmClock m.refTime = [0, 2] ∧
      ∃ s, m.getNamed S parse 1 0 1 none = .ok s ∧ s.mag.dependent = false ∧
        ∃ f, e.mm.AtCsm S m.refTime 2 f ∧ ¬ (s.mm.At S 2 f ∧ ∀ g, e.mm.AtCsm S m.refTime 0 g → s.mm.At S 0 g) := by
  have hr : Reachable pair := .addCs _ _ _ _ _ (.init _ _ _)
  have h0 : 0 ∈ pair.names := by show 0 ∈ [0, 1]; simp
  have h1 : 1 ∈ pair.names := by show 1 ∈ [0, 1]; simp
  have hu : ∀ a b e, pair.Supplied a b e → Sound pair.refTime false e := fun a b e h => by
    rw [(pair_supplied h).2.2]; exact turning_sound
  have hsup : pair.Supplied 1 0 turning := by unfold Supplied; rw [pair_edges]; simp
  have hadj : pair.Adj 1 0 := (adj_iff_supplied hr.inv).2 ⟨_, .inl hsup⟩
  have ht : (⟨false, [1], none⟩ : Time).ofTime (none.or pair.refTime) = .ok ⟨false, [1], none⟩ := by
    show (⟨false, [1], none⟩ : Time).ofTime none = _
    simp [Time.ofTime, Time.make, Time.monotonic]
  obtain ⟨s, p, hs, hw, hd, hp, k⟩ := C102_path hS hr h1 h0 ht (by simp) (by simp) hu
  have hstat : s.mag.dependent = false := by
    by_contra hc
    have hc : s.mag.dependent = true := by simpa using hc
    obtain ⟨l, l1, l2, _⟩ := hw.series (by rw [UTLcs.mm, TLcs.scale_dependent]; exact hc)
    have := hd hc
    have e : s.mag.clock.length = l.length := TLcs.clock_length (c := s.mag) l1
    rw [this] at e
    simp at e
    omega
  have at0 : turning.mm.AtCsm S pair.refTime 0 ⟨1, ![1, 0, 0]⟩ := by
    rw [turning_mm]
    exact (TLcs.At_sample hS halfTurn_wf (i := 0) rfl _).2 ⟨rfl, rfl⟩
  have at2 : turning.mm.AtCsm S pair.refTime 2 ⟨!![-1, 0, 0; 0, -1, 0; 0, 0, 1], ![1, 0, 0]⟩ := by
    rw [turning_mm]
    exact (TLcs.At_sample hS halfTurn_wf (i := 1) rfl _).2 ⟨rfl, rfl⟩
  refine ⟨pair, turning, hr, hu, ⟨.cons hadj (.nil 0), by simp⟩, hsup, rfl, s, ?_, hstat, _, at2, fun ⟨c1, c2⟩ => ?_⟩
  · rw [C103_text S parse pair h1 h0 (t := ⟨false, [1], none⟩) hparse (by decide)]
    exact hs
  · obtain ⟨f, _, _, hf⟩ := TLcs.At_static (S := S) (c := s.mm) (by rw [UTLcs.mm, TLcs.scale_dependent]; exact hstat)
    have e1 := (hf 2 _).1 c1
    have e2 := (hf 0 _).1 (c2 _ at0)
    rw [← e2] at e1
    have := congrArg (fun l : Lcs ℝ => l.orientation 0 0) e1
    norm_num at this

end Csm
end Weldx
