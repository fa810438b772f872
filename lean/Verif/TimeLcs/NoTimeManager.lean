import Verif.TimeLcs.DataRef
import Verif.TimeLcs.NoTime

/-!
# Managers without a time and with the time of a system, for systems that are given by expressions (C102, C103)

Source: `/repo/weldx/transformations/cs_manager.py` 1024-1062 (`_get_cs_on_edge`), 1064-1246 (`get_cs`), 1660-1707 (`time_union`);
`/repo/weldx/transformations/local_cs.py` 166-173 (`__add__`), 613-625 (`time`), 753-754 (`interp_time` without a time).

`getAlways` and `getNamed` (`Verif/TimeLcs/NamedTime.lean`) leave out systems that are given by an expression. They are covered here. The
time of the query is the union of the times of the systems on the path. It is `None` if none of them has times; then a system that is given
by an expression can only be returned as it is.

Simplifications: as in `Verif/TimeLcs/NamedTime.lean`.
-/

set_option linter.unusedSectionVars false

namespace Weldx

open Ip Matrix Csm TLcs

/-! ### model -/

/-- a `LocalCoordinateSystem` with the unit of its coordinates -/
inductive UAny
  | discrete (c : UTLcs)
  | expression (unit : ℝ) (e : ELcs)

/-- `_get_cs_on_edge` without a time, `cs_manager.py` 1024-1062 -/
noncomputable def UEdge.noTime (csmRef : Option Int) (e : UEdge) : Except NoTimeErr UAny := match e.mag.noTime csmRef with
  | .error x => .error x
  | .ok (.discrete c) => .ok (.discrete ⟨e.unit, c⟩)
  | .ok (.expression f) => .ok (.expression e.unit f)

/-- `__add__`, `local_cs.py` 166-211 -/
noncomputable def UAny.add (S : Slerp) : UAny → UAny → Except NoTimeErr UAny
  | .discrete a, .discrete b => match a.add S b with
    | .ok c => .ok (.discrete c)
    | .error e => .error (.time e)
  | _, _ => .error .weldxException

/-- the rest of the path, `cs_manager.py` 1244-1246 -/
noncomputable def addNoTimeU (S : Slerp) (csmRef : Option Int) : List UEdge → UAny → Except NoTimeErr UAny
  | [], acc => .ok acc
  | e :: es, acc => do
    let c ← e.noTime csmRef
    addNoTimeU S csmRef es (← acc.add S c)

/-- `get_cs`, `cs_manager.py` 1238-1246, for a path whose systems have no times -/
noncomputable def getCsNoTimeU (S : Slerp) (csmRef : Option Int) : List UEdge → Except NoTimeErr UAny
  | [] => .ok (.discrete .default)
  | e :: es => do
    let c ← e.noTime csmRef
    addNoTimeU S csmRef es c

/-- `get_cs` without a time, `cs_manager.py` 1216-1246 -/
noncomputable def getCsAny (S : Slerp) (csmRef minRef : Option Int) (es : List UEdge) : Except NoTimeErr UAny :=
  match timeUnion (csmRef.or minRef) (es.map UEdge.mag) with
  | .error x => .error (.time x)
  | .ok (some t) => match getCsU S csmRef es t none with
    | .error x => .error (.time x)
    | .ok c => .ok (.discrete c)
  | .ok none => getCsNoTimeU S csmRef es

namespace Csm
variable {N D : Type} [DecidableEq N]

/-- `get_cs`, `cs_manager.py` 1203-1246, for two systems without a time -/
noncomputable def getAny (S : Slerp) (m : Csm N UEdge D) (a b : N) : Except (CsmError ⊕ NoTimeErr) UAny :=
  if ¬ m.has a ∨ ¬ m.has b then .error (.inl .valueError)
  else if a = b then .ok (.discrete .default)
  else match m.shortestPath a b with
    | none => .error (.inl .noPath)
    | some p => match m.linksOn p with
      | none => .error (.inl .keyError)
      | some es => match getCsAny S m.refTime m.firstRef es with
        | .error x => .error (.inr x)
        | .ok c => .ok c

/-- `time`, `local_cs.py` 613-625: the coordinate `time` of the data set, which has only the orientation if there is an expression -/
def _root_.Weldx.UAny.time : UAny → Except TimeError (Option Time)
  | .discrete c => c.mag.time
  | .expression _ e => e.frame.time

/-- the time of a system seen from its parent, `cs_manager.py` 1227-1236 -/
noncomputable def timeOfAny (S : Slerp) (m : Csm N UEdge D) (n : N) : Except (CsmError ⊕ NoTimeErr) Time := match m.getParent n with
  | .error x => .error (.inl x)
  | .ok none => .error (.inl .valueError)
  | .ok (some p) => match m.getAny S n p with
    | .error x => .error x
    | .ok s => match s.time with
      | .error x => .error (.inr (.time x))
      | .ok none => .error (.inl .valueError)
      | .ok (some t) => .ok t

/-- `get_cs` with given times -/
noncomputable def getAtAny (S : Slerp) (m : Csm N UEdge D) (a b : N) (t : Time) (timeRef : Option Int) : Except (CsmError ⊕ NoTimeErr) UTLcs :=
  match m.getAt S a b t timeRef with
  | .error (.inl x) => .error (.inl x)
  | .error (.inr x) => .error (.inr (.time x))
  | .ok c => .ok c

/-- `get_cs`, `cs_manager.py` 1203-1246, with a text as time -/
noncomputable def getNamedAny (S : Slerp) (parse : N → Option Int → Option Time) (m : Csm N UEdge D) (a b n : N) (timeRef : Option Int) :
    Except (CsmError ⊕ NoTimeErr) UTLcs :=
  if ¬ m.has a ∨ ¬ m.has b then .error (.inl .valueError)
  else if a = b then .ok .default
  else match parse n (timeRef.or m.refTime) with
    | some t => m.getAtAny S a b t timeRef
    | none => match m.timeOfAny S n with
      | .error x => .error x
      | .ok t => m.getAtAny S a b t timeRef

end Csm

/-! ### lemmas -/

theorem UEdge.noTime_static {csmRef : Option Int} {u : ℝ} {c : TLcs} (h : c.dependent = false) :
    (⟨u, .discrete c⟩ : UEdge).noTime csmRef = .ok (.discrete ⟨u, c⟩) := by
  unfold UEdge.noTime TEdge.noTime
  dsimp only
  rw [show (TEdge.discrete c).dependent = false from h]
  rfl

theorem addNoTimeU_static (S : Slerp) (csmRef : Option Int) : ∀ (es : List UEdge) (acc : UTLcs),
    (∀ e ∈ es, ∃ c, e.mag = .discrete c ∧ c.dependent = false) →
    addNoTimeU S csmRef es (.discrete acc) = match addAllU S es acc with
      | .ok c => .ok (.discrete c)
      | .error e => .error (.time e)
  | [], acc, _ => rfl
  | e :: es, acc, h => by
    obtain ⟨c, hc, hd⟩ := h e (by simp)
    obtain ⟨u, mag⟩ := e
    dsimp only at hc
    subst hc
    simp only [addNoTimeU, UEdge.noTime_static hd, bind, Except.bind, addAllU, UAny.add, TEdge.frame]
    cases acc.add S ⟨u, c⟩ with
    | error x => rfl
    | ok d => exact addNoTimeU_static S csmRef es d fun e he => h e (by simp [he])

/-- if there are times or no expressions, the query is the one of `getCsDefaultU` -/
theorem getCsAny_default (S : Slerp) {csmRef minRef : Option Int} {abs : Bool} {es : List UEdge} (he : ∀ e ∈ es, Sound csmRef abs e)
    (hdisc : (∀ e ∈ es, e.mag.frame.times = none) → ∀ e ∈ es, ∃ c, e.mag = .discrete c)
    (hm : csmRef = none → minRef.isSome = true → abs = true) : getCsAny S csmRef minRef es = match getCsDefaultU S csmRef minRef es with
      | .error x => .error (.time x)
      | .ok c => .ok (.discrete c) := by
  have hw : ∀ e ∈ es.map UEdge.mm, e.WF := fun e h => by
    obtain ⟨e, h', rfl⟩ := List.mem_map.1 h
    exact (he e h').wf
  have hk : Kinds csmRef minRef (es.map UEdge.mm) := fun hc => ⟨abs, hm hc, fun e h hd => by
    obtain ⟨e, h', rfl⟩ := List.mem_map.1 h
    exact (he e h').kind_mm hd hc⟩
  unfold getCsAny getCsDefaultU
  rw [← timeUnion_mm]
  rcases timeUnion_spec hw hk with ⟨h1, h2⟩ | ⟨u, hu, _⟩
  · have hT : ∀ e ∈ es, e.mag.frame.times = none := fun e h => by
      rw [← Csm.scale_times e.unit]; exact h2 _ (List.mem_map_of_mem h)
    have hs : ∀ e ∈ es, ∃ c, e.mag = .discrete c ∧ c.dependent = false := fun e h => by
      obtain ⟨c, hc⟩ := hdisc hT e h
      refine ⟨c, hc, ?_⟩
      have w := (he e h).wf
      rw [UEdge.mm, hc] at w
      by_contra hd
      refine TLcs.times_some w.1 (by rw [TLcs.scale_dependent]; simpa using hd) ?_
      have := hT e h
      rw [hc] at this
      exact this
    simp only [h1, bind, Except.bind]
    cases es with
    | nil => rfl
    | cons e es =>
      obtain ⟨c, hc, hd⟩ := hs e (by simp)
      obtain ⟨v, mag⟩ := e
      dsimp only at hc
      subst hc
      simp only [getCsNoTimeU, UEdge.noTime_static hd, bind, Except.bind, TEdge.frame]
      rw [addNoTimeU_static S csmRef es ⟨v, c⟩ fun e he => hs e (by simp [he])]
      cases addAllU S es ⟨v, c⟩ <;> rfl
  · simp only [hu, bind, Except.bind]

theorem addNoTimeU_expression (S : Slerp) (csmRef : Option Int) : ∀ (es : List UEdge) (acc : UAny),
    (∃ e ∈ es, ∃ f i, e.mag = .expression f i) ∨ ((∃ u e, acc = .expression u e) ∧ es ≠ []) → ∃ x, addNoTimeU S csmRef es acc = .error x
  | [], acc, h => by
    rcases h with ⟨e, h, _⟩ | ⟨_, h⟩
    · cases h
    · exact absurd rfl h
  | e :: es, acc, h => by
    simp only [addNoTimeU]
    cases hn : e.noTime csmRef with
    | error x => exact ⟨x, rfl⟩
    | ok c =>
      simp only [bind, Except.bind]
      cases ha : acc.add S c with
      | error x => exact ⟨x, rfl⟩
      | ok d =>
        refine addNoTimeU_expression S csmRef es d (.inl ?_)
        have key : (∃ u e, acc = .expression u e) ∨ (∃ u e, c = .expression u e) → False := by
          rintro (⟨u, f, rfl⟩ | ⟨u, f, rfl⟩)
          · cases ha
          · cases acc <;> cases ha
        rcases h with ⟨e', h, f, i, hf⟩ | ⟨h, _⟩
        · rcases List.mem_cons.1 h with h | h
          · subst h
            exfalso
            obtain ⟨u, mag⟩ := e'
            dsimp only at hf
            subst hf
            unfold UEdge.noTime TEdge.noTime at hn
            dsimp only at hn
            split at hn
            · cases hn
            · rename_i c' hc'
              split at hc'
              · cases hc'
              · cases i <;> cases hc'
            · cases hn; exact key (.inr ⟨_, _, rfl⟩)
          · exact ⟨e', h, f, i, hf⟩
        · exact (key (.inl h)).elim

theorem noTimeU_link (csmRef : Option Int) (u : ℝ) (f : ELcs) (i : Bool) : (⟨u, .expression f i⟩ : UEdge).noTime csmRef =
    if f.ref = none ∧ csmRef ≠ none then .error .typeError else if i then .error .weldxException else .ok (.expression u f) := by
  unfold UEdge.noTime TEdge.noTime
  cases hr : f.ref <;> cases csmRef <;> cases i <;> simp [TEdge.dependent, TEdge.ref, hr]

/-- a path of more than one link with an expression and no times -/
theorem noTimeU_path (S : Slerp) (csmRef : Option Int) {es : List UEdge} (h : ∃ e ∈ es, ∃ f i, e.mag = .expression f i) (hl : 2 ≤ es.length) :
    ∃ x, getCsNoTimeU S csmRef es = .error x := by
  match es, hl with
  | e :: e' :: es, _ =>
    simp only [getCsNoTimeU]
    cases hn : e.noTime csmRef with
    | error x => exact ⟨x, rfl⟩
    | ok c =>
      refine addNoTimeU_expression S csmRef (e' :: es) c ?_
      obtain ⟨k, hk, f, i, hf⟩ := h
      rcases List.mem_cons.1 hk with hk | hk
      · subst hk
        right
        obtain ⟨u, mag⟩ := k
        dsimp only at hf
        subst hf
        rw [noTimeU_link] at hn
        split at hn
        · cases hn
        · split at hn
          · cases hn
          · cases hn; exact ⟨⟨_, _, rfl⟩, by simp⟩
      · exact .inl ⟨k, hk, f, i, hf⟩

namespace Csm
variable {N D : Type} [DecidableEq N]

theorem getAny_path (S : Slerp) {m : Csm N UEdge D} (I : Inv m) {a b : N} (ha : a ∈ m.names) (hb : b ∈ m.names) (hab : a ≠ b) {p : List N}
    (hp : SimplePath m.Adj a b p) {es : List UEdge} (hl : m.linksOn p = some es) : m.getAny S a b = match getCsAny S m.refTime m.firstRef es with
      | .error x => .error (.inr x)
      | .ok c => .ok c := by
  have hh : ¬(¬ m.has a = true ∨ ¬ m.has b = true) := by simp [Csm.has, ha, hb]
  unfold getAny
  rw [if_neg hh, if_neg hab, (shortestPath_iff I ha hb).2 hp]
  simp only [hl]

/-- the times of a path are those of its links -/
theorem onPath_links {m : Csm N UEdge D} (I : Inv m) {a b : N} {p : List N} (hp : Walk m.Adj a b p) {es : List UEdge}
    (hl : m.linksOn p = some es) (x : Int) : (∃ e ∈ es, x ∈ e.mag.csmClock m.refTime) ↔ m.OnPath p x :=
  mem_links I (P := fun e => x ∈ e.mag.csmClock m.refTime) (fun e => by rw [reverse_csmClock]) hp hl

theorem clock_of_frame {r : Option Int} {e : UEdge} (hw : e.mm.WF) (h : e.mag.frame.times ≠ none) : ∃ x, x ∈ e.mag.csmClock r := by
  have h' : e.mm.frame.times ≠ none := by rw [UEdge.mm, scale_times]; exact h
  rcases frame_time hw with k | ⟨k1, k2, k3, k4⟩
  · exact absurd k.1 h'
  · have hc : e.mag.frame.clock ≠ [] := by
      have : e.mm.frame.clock = e.mag.frame.clock := by
        obtain ⟨u, mag⟩ := e
        cases mag <;> rfl
      rw [← this]
      intro h0
      have := k4
      simp_all
    obtain ⟨x, hx⟩ := List.exists_mem_of_ne_nil _ hc
    unfold TEdge.csmClock
    split
    · exact ⟨_, List.mem_map_of_mem hx⟩
    · exact ⟨x, hx⟩

/-- the link on an edge and the relation that the user supplied -/
theorem linkOn_supplied {m : Csm N UEdge D} (I : Inv m) {a b : N} {e : UEdge} :
    (m.Supplied a b e → m.linkOn a b = some e) ∧ (m.Supplied b a e → m.linkOn a b = some e.reverse) := by
  have uniq : ∀ {a b : N} {x y : Edge UEdge}, ((a, b), x) ∈ m.edges → ((a, b), y) ∈ m.edges → x = y := fun h h' => by
    have := (Dict.get?_of_mem I.edgesNodup h).symm.trans (Dict.get?_of_mem I.edgesNodup h')
    simpa using this
  refine ⟨fun h => ?_, fun h => ?_⟩
  · simp only [linkOn, edge?, Dict.get?_of_mem I.edgesNodup h]
  · obtain ⟨k, hk, hq⟩ := I.paired b a _ h
    have hadj : m.Adj a b := Dict.mem_keys_iff.2 ⟨_, hk⟩
    obtain ⟨e', h1 | h1⟩ := linkOn_spec I hadj
    · have := uniq hk h1.1
      subst this
      rcases hq with ⟨d, _, h2⟩ | ⟨d, h2, _⟩
      · cases h2
      · rename_i h3
        cases h3
    · have := uniq h h1.1
      simp only [Edge.mk.injEq, Option.some.injEq, true_and] at this
      subst this
      exact h1.2

/-- systems that are given by an expression stay time dependent if they are taken at more than one time -/
theorem onEdge_expression {S : Slerp} {csmRef tref : Option Int} {t : Time} (hne : 2 ≤ t.vals.length) (own : Bool) {f : ELcs} {i : Bool} {r : TLcs}
    (hq : t.abs = false → (if own then f.ref else tref).or t.ref = none)
    (h : (TEdge.expression f i).onEdge S csmRef t tref own = .ok r) : r.dependent = true ∧ r.ref.isSome = t.abs := by
  have turned : ∀ c : TLcs, c.dependent = true ∧ c.ref.isSome = t.abs → (TEdge.turn c (.expression f i)).dependent = true ∧
      (TEdge.turn c (.expression f i)).ref.isSome = t.abs := fun c hc => by
    cases i with
    | false => exact hc
    | true => exact ⟨(TEdge.reverse_dependent (.discrete c)).trans hc.1, hc.2⟩
  have interp : ∀ (t : Time) tref c, 2 ≤ t.vals.length → (TEdge.expression f i).interp S t tref = .ok c →
      c.dependent = true ∧ c.ref.isSome = (t.abs || (tref.or t.ref).isSome) := by
    intro t tref c hl hc
    simp only [TEdge.interp, ELcs.interpTime, bind, Except.bind] at hc
    cases ht : t.ofTime tref with
    | error x => rw [ht] at hc; cases hc
    | ok t' =>
      rw [ht] at hc
      dsimp only at hc
      have hv : 2 ≤ t'.vals.length := by
        rw [(TLcs.ofTime_ok ht).1]
        split
        · exact hl
        · split
          · rw [List.length_map]; exact hl
          · exact hl
      split at hc
      · cases hc
      · cases ho : f.interpOrient S t' with
        | error x => rw [ho] at hc; cases hc
        | ok o =>
          rw [ho] at hc
          dsimp only at hc
          have hs : (f.interpCoord t').isSeries = true := by
            unfold ELcs.interpCoord
            match t'.vals, hv with
            | x :: y :: l, _ => rfl
          rw [if_pos (by simp [hs])] at hc
          obtain ⟨rt, ds, d1, d2, _, d4⟩ := deltas (t := t') (fun h0 => by rw [h0] at hv; simp at hv)
          rw [d2] at hc
          dsimp only at hc
          rw [d1] at hc
          cases hc
          exact ⟨by simp [TLcs.dependent, hs], d4.trans (TLcs.ofTime_ok ht).2.1⟩
  have hne0 : t.vals ≠ [] := fun h0 => by rw [h0] at hne; simp at hne
  have h : TEdge.onEdge.interpolated S csmRef t tref own (.expression f i) = .ok r := h
  unfold TEdge.onEdge.interpolated at h
  split at h
  · rename_i q _ _
    simp only [bind, Except.bind] at h
    split at h
    · cases h
    · rename_i d h1
      split at h
      · cases h
      · rename_i c h2
        split at h
        · cases h
        · rename_i c' h3
          cases h
          refine turned _ ?_
          have hd : 2 ≤ d.vals.length := by
            have k : Time.ofTime ⟨true, [q], none⟩ none = .ok ⟨true, [q], none⟩ := by
              simp [Time.ofTime, Time.make, Time.monotonic]
            simp only [Time.sub, k, bind, Except.bind, if_true, minus_single, Bool.and_true, Bool.not_true, Bool.and_false] at h1
            split at h1
            · cases h1
            · simp only [Time.make] at h1
              split at h1
              · cases h1
                simpa using hne
              · cases h1
          have hc := (interp d none c hd h2).1
          unfold TEdge.rebuild at h3
          rw [if_pos hc] at h3
          obtain ⟨rt, ds, d1, d2, _, d4⟩ := deltas hne0
          simp only [bind, Except.bind, d1, d2] at h3
          cases h3
          exact ⟨hc, d4⟩
  · simp only [bind, Except.bind] at h
    split at h
    · cases h
    · rename_i c hc
      cases h
      refine turned _ ?_
      obtain ⟨k1, k2⟩ := interp t _ _ hne hc
      refine ⟨k1, k2.trans ?_⟩
      cases ha : t.abs with
      | true => rfl
      | false =>
        show _ = false
        rw [show (TEdge.expression f i).ref = f.ref from rfl, hq ha]
        rfl

/-! ### queries without a time -/

/-- **C102** without a time, for paths on which a system has times or no system is given by an expression: the answer has the times of the
systems on the path, and at each of them it is the composition of these systems. If none of them depends on time, it is their composition
at all times. -/
theorem C102_no_time {S : Slerp} (hS : SlerpOk S) {m : Csm N UEdge D} (h : Reachable m) {a b : N} {p : List N} (hp : SimplePath m.Adj a b p)
    (ha : a ∈ m.names) (hb : b ∈ m.names) {abs : Bool} (hu : ∀ a b e, m.Supplied a b e → Sound m.refTime abs e) (hans : m.Answerable p) :
    ∃ s, m.getAny S a b = .ok (.discrete s) ∧ (s.mag.dependent = true → s.mag.clock.Pairwise (· < ·) ∧ ∀ x, x ∈ s.mag.clock ↔ m.OnPath p x) ∧
      ∀ x, m.OnPath p x ∨ m.StillPath p →
        ∃ f, (∀ g, s.mm.At S x g ↔ g = f) ∧ (∃ F, Direct S m x p F) ∧ ∀ F, Direct S m x p F → ∀ q, f.toParent q = F q := by
  have I := h.inv
  obtain ⟨s, q, h1, h2, h3, h4⟩ := always_answer hS I ha hb hu fun q hq => by rwa [I.tree.path_unique _ _ _ _ hq hp]
  cases I.tree.path_unique _ _ _ _ h2 hp
  refine ⟨s, ?_, fun hd => (h3 hd).2, h4⟩
  have hh : ¬(¬ m.has a = true ∨ ¬ m.has b = true) := by simp [Csm.has, ha, hb]
  by_cases hab : a = b
  · unfold getAlways at h1
    unfold getAny
    rw [if_neg hh, if_pos hab] at h1 ⊢
    cases h1; rfl
  · obtain ⟨es, l1, l2, _, _⟩ := linksOn_spec (S := S) I hu hp.1
    rw [getAny_path S I ha hb hab hp l1, getCsAny_default S l2 (answerable_links I hp.1 l1 hans) (firstRef_abs hu)]
    unfold getAlways at h1
    rw [if_neg hh, if_neg hab, (shortestPath_iff I ha hb).2 hp] at h1
    simp only [l1] at h1
    cases hc : getCsDefaultU S m.refTime m.firstRef es with
    | error x => rw [hc] at h1; cases h1
    | ok c => rw [hc] at h1; cases h1; rfl

/-- the links of a path that is not answerable -/
theorem not_answerable {S : Slerp} {m : Csm N UEdge D} (I : Inv m) {a b : N} {p : List N} (hp : SimplePath m.Adj a b p)
    (ha : a ∈ m.names) (hb : b ∈ m.names) {abs : Bool} (hu : ∀ a b e, m.Supplied a b e → Sound m.refTime abs e) (hno : ¬ m.Answerable p) :
    ∃ es, m.linksOn p = some es ∧ a ≠ b ∧ (∃ e ∈ es, ∃ f i, e.mag = .expression f i) ∧
      m.getAny S a b = match getCsNoTimeU S m.refTime es with
        | .error x => .error (.inr x)
        | .ok c => .ok c := by
  obtain ⟨es, l1, l2, _, _⟩ := linksOn_spec (S := S) I hu hp.1
  unfold Answerable at hno
  push Not at hno
  obtain ⟨hx, x, y, e, e1, e2, e3⟩ := hno
  have hab : a ≠ b := fun hc => by
    subst hc
    rw [hp.refl_eq] at e1
    have := e1.length_le
    simp at this
  have hT : ∀ e ∈ es, e.mag.frame.times = none := fun e he => by
    by_contra hc
    obtain ⟨x, k⟩ := clock_of_frame (r := m.refTime) (l2 e he).wf hc
    exact hx x ((onPath_links I hp.1 l1 x).1 ⟨e, he, k⟩)
  refine ⟨es, l1, hab, ?_, ?_⟩
  · obtain ⟨k, k1, k2⟩ := (mem_links I (P := fun e => ∀ c, e.mag ≠ .discrete c) (fun e => by
      obtain ⟨u, mag⟩ := e
      cases mag with
      | discrete c => simp [UEdge.reverse, TEdge.reverse]
      | expression c i => simp [UEdge.reverse, TEdge.reverse]) hp.1 l1).2 ⟨x, y, e, e1, e2, e3⟩
    obtain ⟨u, mag⟩ := k
    cases mag with
    | discrete c => exact absurd rfl (k2 c)
    | expression f i => exact ⟨_, k1, f, i, rfl⟩
  · have hw : ∀ e ∈ es.map UEdge.mm, e.WF := fun e h => by
      obtain ⟨e, h', rfl⟩ := List.mem_map.1 h
      exact (l2 e h').wf
    have hk : Kinds m.refTime m.firstRef (es.map UEdge.mm) := fun hc => ⟨abs, firstRef_abs hu hc, fun e h hd => by
      obtain ⟨e, h', rfl⟩ := List.mem_map.1 h
      exact (l2 e h').kind_mm hd hc⟩
    rw [getAny_path S I ha hb hab hp l1]
    unfold getCsAny
    rw [← timeUnion_mm]
    rcases timeUnion_spec hw hk with ⟨h1, _⟩ | ⟨u, _, _, h3, _, _, _, h4⟩
    · simp only [h1]
    · exfalso
      obtain ⟨x, hx'⟩ := List.exists_mem_of_ne_nil _ h3
      obtain ⟨e, he, hx'⟩ := (h4 x).1 hx'
      obtain ⟨e, he', rfl⟩ := List.mem_map.1 he
      rw [UEdge.mm, scale_csmClock] at hx'
      exact hx x ((onPath_links I hp.1 l1 x).1 ⟨e, he', hx'⟩)

/-- **C102** without a time, for the other paths: no system has times and one is given by an expression. If this is the only link of the
path, and it is used as it was supplied, the system is returned as it is, except that a system without reference time in a manager with one
raises a `TypeError`. In the other direction and on longer paths the query raises, although it is answered if a time is given (C102_path). -/
theorem C102_no_time_expression {S : Slerp} {m : Csm N UEdge D} (h : Reachable m) {a b : N} {p : List N} (hp : SimplePath m.Adj a b p)
    (ha : a ∈ m.names) (hb : b ∈ m.names) {abs : Bool} (hu : ∀ a b e, m.Supplied a b e → Sound m.refTime abs e) (hno : ¬ m.Answerable p) :
    (∀ u f, m.Supplied a b ⟨u, .expression f false⟩ → m.getAny S a b =
      if f.ref = none ∧ m.refTime ≠ none then .error (.inr .typeError) else .ok (.expression u f)) ∧
    (∀ u f, m.Supplied b a ⟨u, .expression f false⟩ → m.getAny S a b =
      if f.ref = none ∧ m.refTime ≠ none then .error (.inr .typeError) else .error (.inr .weldxException)) ∧
    (3 ≤ p.length → ∃ x, m.getAny S a b = .error (.inr x)) := by
  have I := h.inv
  obtain ⟨es, l1, hab, hex, hget⟩ := not_answerable (S := S) I hp ha hb hu hno
  have single : ∀ e, m.Supplied a b e ∨ m.Supplied b a e → p = [a, b] := fun e he => by
    have hadj : m.Adj a b := (adj_iff_supplied I).2 ⟨e, he⟩
    exact I.tree.path_unique _ _ _ _ hp ⟨.cons hadj (.nil b), by simp [hab]⟩
  have links : ∀ e, m.linkOn a b = some e → p = [a, b] → es = [e] := fun e he hp => by
    subst hp
    simp only [linksOn, he] at l1
    simpa using l1.symm
  refine ⟨fun u f hs => ?_, fun u f hs => ?_, fun hl => ?_⟩
  · rw [hget, links _ ((linkOn_supplied I).1 hs) (single _ (.inl hs))]
    simp only [getCsNoTimeU, noTimeU_link]
    by_cases hc : f.ref = none ∧ m.refTime ≠ none
    · rw [if_pos hc, if_pos hc]; rfl
    · rw [if_neg hc, if_neg hc]; rfl
  · rw [hget, links _ ((linkOn_supplied I).2 hs) (single _ (.inr hs))]
    simp only [getCsNoTimeU, UEdge.reverse, TEdge.reverse, noTimeU_link]
    by_cases hc : f.ref = none ∧ m.refTime ≠ none
    · rw [if_pos hc, if_pos hc]; rfl
    · rw [if_neg hc, if_neg hc]; rfl
  · obtain ⟨x, hx⟩ := noTimeU_path S m.refTime hex (by rw [linksOn_length l1]; omega)
    exact ⟨x, by rw [hget, hx]⟩

/-! ### the name of a system as time -/

theorem mag_wf {e : UEdge} (h : e.mm.WF) (hu : 0 < e.unit) : e.mag.WF := by
  obtain ⟨u, mag⟩ := e
  cases mag with
  | expression f i => exact h
  | discrete c =>
    have k : ((TEdge.discrete c).scale u).WF := h
    have := k.scale u⁻¹
    have e : ((TEdge.discrete c).scale u).scale u⁻¹ = .discrete c := by
      have hu0 : u ≠ 0 := ne_of_gt hu
      simp only [TEdge.scale, TLcs.scale]
      congr 1
      cases c with
      | mk a b o v =>
        cases v with
        | static w => simp [Comp.map, smul_smul, hu0]
        | series l =>
          simp only [Comp.map, List.map_map]
          congr 2
          conv_rhs => rw [← List.map_id l]
          exact List.map_congr_left fun x _ => by simp [smul_smul, hu0]
    rwa [e] at this

/-- the parent of a system and the query for it -/
theorem parent_path (S : Slerp) {m : Csm N UEdge D} (I : Inv m) {n p : N} {r : List N} (hp : SimplePath m.Adj n m.root (n :: p :: r)) {e : UEdge}
    (hl : m.linkOn n p = some e) : n ∈ m.names ∧ p ∈ m.names ∧ n ≠ p ∧ m.getParent n = .ok (some p) ∧ SimplePath m.Adj n p [n, p] ∧
      m.linksOn [n, p] = some [e] ∧ m.getAny S n p = match getCsAny S m.refTime m.firstRef [e] with
        | .error x => .error (.inr x)
        | .ok c => .ok c := by
  have hadj : m.Adj n p := by
    cases hp.1 with
    | cons h hw =>
      obtain ⟨q, hq⟩ := hw.head_eq
      cases hq
      exact h
  have hn : n ∈ m.names := I.tree.mem _ _ hadj
  have hpm : p ∈ m.names := I.tree.mem _ _ (I.tree.symm _ _ hadj)
  have hnp : n ≠ p := fun e => by
    have := hp.2
    rw [e] at this
    simp at this
  have hne : n ≠ m.root := by
    intro e
    have := hp
    rw [← e] at this
    simpa using this.refl_eq
  have par : m.getParent n = .ok (some p) := by
    simp only [getParent, if_neg hne, checkExists_ok hn, (shortestPath_iff I hn I.root_mem).2 hp]
    rfl
  have hpath : SimplePath m.Adj n p [n, p] := ⟨.cons hadj (.nil p), by simp [hnp]⟩
  have hlinks : m.linksOn [n, p] = some [e] := by simp only [linksOn, hl]
  exact ⟨hn, hpm, hnp, par, hpath, hlinks, getAny_path S I hn hpm hnp hpath hlinks⟩

/-- a system with times: its times -/
theorem timeOfAny_spec {S : Slerp} (hS : SlerpOk S) {m : Csm N UEdge D} (h : Reachable m) {abs : Bool}
    (hu : ∀ a b e, m.Supplied a b e → Sound m.refTime abs e) {n p : N} {r : List N} (hp : SimplePath m.Adj n m.root (n :: p :: r))
    {e : UEdge} (hl : m.linkOn n p = some e) (hw : Sound m.refTime abs e) (ht : e.mag.frame.times ≠ none) :
    ∃ t, m.timeOfAny S n = .ok t ∧ t.vals = e.mag.csmClock m.refTime ∧ t.vals.Pairwise (· < ·) ∧
      t.vals ≠ [] ∧ t.abs = (m.refTime.isSome || abs) ∧ (t.abs = false → t.ref = none) := by
  have I := h.inv
  obtain ⟨hn, hpm, hnp, par, hpath, hlinks, hget⟩ := parent_path S I hp hl
  have hmw := mag_wf hw.wf hw.unit
  rcases frame_time hmw with k | ⟨_, hd, _, hcne, hcasc⟩
  · exact absurd k.1 ht
  have hkinds : Kinds m.refTime m.firstRef [e.mag] := fun hr => ⟨abs, firstRef_abs hu hr, fun e' he hd => by
    rw [List.mem_singleton] at he
    subst he
    exact hw.kind hd hr⟩
  rcases timeUnion_spec (es := [e.mag]) (by simpa using hmw) hkinds with ⟨_, h1⟩ | ⟨t, t1, t2, t3, t4, t5, t6, t7⟩
  · exact absurd (h1 e.mag (by simp)) ht
  have hcl : ∀ x, x ∈ t.vals ↔ x ∈ e.mag.csmClock m.refTime := fun x => by rw [t7 x]; simp
  have hasc : (e.mag.csmClock m.refTime).Pairwise (· < ·) := by
    unfold TEdge.csmClock
    split
    · rw [List.pairwise_map]
      exact hcasc.imp fun h => by simpa using h
    · exact hcasc
  have hv := eq_of_mem_iff t2 hasc hcl
  have hof : t.ofTime (none.or m.refTime) = .ok ⟨t.abs, t.vals, (none.or m.refTime).or t.ref⟩ := by
    refine TEdge.ofTime_again _ t2 fun h => ?_
    rw [t4]
    cases hc : m.refTime with
    | none => rfl
    | some r => rw [t5 (by rw [hc]; rfl)] at h; cases h
  set t' : Time := ⟨t.abs, t.vals, (none.or m.refTime).or t.ref⟩ with ht'
  have hrel : t.abs = false → m.refTime = none := fun h => by
    cases hc : m.refTime with
    | none => rfl
    | some r => rw [t5 (by rw [hc]; rfl)] at h; cases h
  have hq : TEdge.Query m.refTime (none.or m.refTime) t' := by
    refine ⟨t2, t3, fun r hr => by rw [ht', hr]; rfl, fun h => ?_, fun h => t5 h⟩
    show (none.or m.refTime).or t.ref = none
    rw [t4, hrel h]; rfl
  have hkd : m.refTime = none → e.mag.ref.isSome = t.abs := fun hr => t6 e.mag (by simp) hd hr
  obtain ⟨s, s1, s4, _, _⟩ := TEdge.onEdge_spec hS hq (none.or m.refTime).isNone hmw (fun _ hr => hkd hr)
  obtain ⟨s2, s3⟩ : s.dependent = true ∧ s.ref.isSome = t.abs := by
    obtain ⟨u, mag⟩ := e
    cases mag with
    | discrete c =>
      obtain ⟨s', k1, k2⟩ := onEdge_own hS hq (none.or m.refTime).isNone hmw hd hkd hv
      rw [k1] at s1
      cases s1
      exact k2
    | expression f i =>
      have hlen : 2 ≤ t'.vals.length := by
        show 2 ≤ t.vals.length
        rw [hv]
        have hs : f.orient.isSeries = true := by
          by_contra hc
          exact ht (hmw.2.1 (by simpa using hc))
        obtain ⟨l, l1, l2, _⟩ := (hmw.1 hs).series (by simp [TLcs.dependent, ELcs.frame, hs])
        have : 2 ≤ (TEdge.expression f i).frame.clock.length := by
          show 2 ≤ f.frame.clock.length
          rw [TLcs.clock_length l1]; exact l2
        unfold TEdge.csmClock
        split
        · rw [List.length_map]; exact this
        · exact this
      refine onEdge_expression hlen _ (fun ha => ?_) s1
      have hr := hrel ha
      have hk := hkd hr
      rw [show t.abs = false from ha] at hk
      have hfr : f.ref = none := by simpa [TEdge.ref] using hk
      show (if _ then f.ref else _).or ((none.or m.refTime).or t.ref) = none
      rw [hr, hfr, t4]
      rfl
  have hans : m.getAny S n p = .ok (.discrete ⟨e.unit, s⟩) := by
    rw [hget]
    simp only [getCsAny, List.map_cons, List.map_nil, t1, bind, Except.bind, getCsU, hof, UEdge.onEdge, s1, Except.map]
  obtain ⟨l, l1, _, l2, _⟩ := s4.1.series s2
  have hclk : s.clock = t.vals := by
    rcases s4.2 with k | k
    · exact k.2
    · rw [s2] at k; cases k.1
  refine ⟨⟨s.ref.isSome, s.clock, s.ref⟩, ?_, hclk.trans hv, by rw [hclk]; exact t2, by rw [hclk]; exact t3, ?_, fun h => by simpa using h⟩
  · simp only [timeOfAny, par, hans, UAny.time, TLcs.time_eq l1 l2]
  · show s.ref.isSome = _
    rw [s3]
    cases hr : m.refTime with
    | some r => rw [t5 (by rw [hr]; rfl)]; rfl
    | none =>
      rw [← hkd hr]
      exact hw.kind hd hr

/-- a system without times: errors -/
theorem timeOfAny_none {S : Slerp} {m : Csm N UEdge D} (h : Reachable m) {abs : Bool}
    (hu : ∀ a b e, m.Supplied a b e → Sound m.refTime abs e) {n p : N} {r : List N} (hp : SimplePath m.Adj n m.root (n :: p :: r))
    {e : UEdge} (hl : m.linkOn n p = some e) (hw : Sound m.refTime abs e) (ht : e.mag.frame.times = none) :
    m.timeOfAny S n = .error (match e.mag with
      | .discrete _ => .inl .valueError
      | .expression f i => if f.ref = none ∧ m.refTime ≠ none then .inr .typeError
        else if i then .inr .weldxException else .inl .valueError) := by
  have I := h.inv
  obtain ⟨hn, hpm, hnp, par, hpath, hlinks, hget⟩ := parent_path S I hp hl
  have hmw := mag_wf hw.wf hw.unit
  have hkinds : Kinds m.refTime m.firstRef [e.mag] := fun hr => ⟨abs, firstRef_abs hu hr, fun e' he hd => by
    rw [List.mem_singleton] at he
    subst he
    exact hw.kind hd hr⟩
  have hnone : timeUnion (m.refTime.or m.firstRef) [e.mag] = .ok none := by
    rcases timeUnion_spec (es := [e.mag]) (by simpa using hmw) hkinds with ⟨h1, _⟩ | ⟨t, _, _, t3, _, _, _, t7⟩
    · exact h1
    · exfalso
      obtain ⟨x, hx⟩ := List.exists_mem_of_ne_nil _ t3
      obtain ⟨e', he, hx⟩ := (t7 x).1 hx
      rw [List.mem_singleton] at he
      subst he
      rw [csmClock_nil ht] at hx
      cases hx
  have hget' : m.getAny S n p = match e.noTime m.refTime with
      | .error x => .error (.inr x)
      | .ok c => .ok c := by
    rw [hget]
    simp only [getCsAny, List.map_cons, List.map_nil, hnone, getCsNoTimeU, bind, Except.bind]
    cases e.noTime m.refTime <;> rfl
  obtain ⟨u, mag⟩ := e
  cases mag with
  | discrete c =>
    have hd : c.dependent = false := by
      by_contra hc
      exact TLcs.times_some hmw.1 (by simpa using hc) ht
    rw [UEdge.noTime_static hd] at hget'
    have : c.time = .ok none := by rw [TLcs.time, show c.times = none from ht]
    simp only [timeOfAny, par, hget', UAny.time, this]
  | expression f i =>
    rw [noTimeU_link] at hget'
    have : f.frame.time = .ok none := by rw [TLcs.time, show f.frame.times = none from ht]
    dsimp only
    split at hget'
    · rename_i x hx
      split at hx
      · rename_i hc
        cases hx
        rw [if_pos hc]
        simp only [timeOfAny, par, hget']
      · rename_i hc
        rw [if_neg hc]
        split at hx
        · rename_i hi
          cases hx
          rw [if_pos hi]
          simp only [timeOfAny, par, hget']
        · cases hx
    · rename_i c hx
      split at hx
      · cases hx
      · rename_i hc
        rw [if_neg hc]
        split at hx
        · cases hx
        · rename_i hi
          cases hx
          rw [if_neg hi]
          simp only [timeOfAny, par, hget', UAny.time, this]

/-- **C103.** With the name of a system that has times, `get_cs` answers at these times; if the answer depends on time, it has exactly these
times. At each of them it is the composition of the systems on the direct path, as for times that are given explicitly (C102). The system
may be given by an expression if its orientation has times. The name must not be a text that describes a time. -/
theorem C103_named {S : Slerp} (hS : SlerpOk S) {parse : N → Option Int → Option Time} {m : Csm N UEdge D} (h : Reachable m) {abs : Bool}
    (hu : ∀ a b e, m.Supplied a b e → Sound m.refTime abs e) {a b : N} (ha : a ∈ m.names) (hb : b ∈ m.names) {n p : N} {r : List N}
    (hp : SimplePath m.Adj n m.root (n :: p :: r)) {e : UEdge} (he : m.Supplied n p e ∨ m.Supplied p n e) (ht : e.mag.frame.times ≠ none)
    {timeRef : Option Int} (hparse : parse n (timeRef.or m.refTime) = none) (htr : timeRef = none ∨ m.refTime.isSome = true ∨ abs = true) :
    ∃ s q, m.getNamedAny S parse a b n timeRef = .ok s ∧ SimplePath m.Adj a b q ∧
      (s.mag.dependent = true → s.mag.clock = e.mag.csmClock m.refTime) ∧ ∀ x ∈ e.mag.csmClock m.refTime,
        ∃ f, (∀ g, s.mm.At S x g ↔ g = f) ∧ (∃ F, Direct S m x q F) ∧ ∀ F, Direct S m x q F → ∀ y, f.toParent y = F y := by
  have I := h.inv
  obtain ⟨e', hl, hw, ht', hcl⟩ : ∃ e', m.linkOn n p = some e' ∧ Sound m.refTime abs e' ∧ e'.mag.frame.times ≠ none ∧
      e'.mag.csmClock m.refTime = e.mag.csmClock m.refTime := by
    rcases he with he | he
    · exact ⟨e, (linkOn_supplied I).1 he, hu _ _ _ he, ht, rfl⟩
    · refine ⟨e.reverse, (linkOn_supplied I).2 he, sound_reverse (hu _ _ _ he), ?_, reverse_csmClock _ e⟩
      obtain ⟨u, mag⟩ := e
      cases mag <;> exact ht
  obtain ⟨t, t1, t2, t3, t4, t5, t6⟩ := timeOfAny_spec hS h hu hp hl hw ht'
  have hof : t.ofTime (timeRef.or m.refTime) = .ok ⟨t.abs, t.vals, (timeRef.or m.refTime).or t.ref⟩ := by
    refine TEdge.ofTime_again _ t3 fun hab => ?_
    rw [t6 hab]
    rw [t5, Bool.or_eq_false_iff] at hab
    rcases htr with rfl | hh | hh
    · simpa using hab.1
    · rw [hh] at hab; simp at hab
    · rw [hh] at hab; simp at hab
  have hu' : ∀ a b e, m.Supplied a b e → Sound m.refTime t.abs e := fun a b e he => by
    refine ⟨(hu a b e he).wf, (hu a b e he).unit, fun hd hr => ?_⟩
    rw [(hu a b e he).kind hd hr, t5, hr]; rfl
  obtain ⟨s, q, h1, _, h2, h3, h4⟩ := C102_path hS h ha hb hof t3 t4 hu'
  refine ⟨s, q, ?_, h3, fun k => (h2 k).trans (t2.trans hcl), fun x hx => h4 x (by rw [← hcl, ← t2] at hx; exact hx)⟩
  have hh : ¬(¬ m.has a = true ∨ ¬ m.has b = true) := by simp [Csm.has, ha, hb]
  unfold getNamedAny
  rw [if_neg hh]
  by_cases hab : a = b
  · rw [if_pos hab]
    unfold getAt at h1
    rw [if_neg hh, if_pos hab] at h1
    cases h1; rfl
  · rw [if_neg hab]
    simp only [hparse, t1, getAtAny, h1]

/-- **C103.** Names that cannot be used: of systems with a constant relation to their parents (1), of the root and of no system (4). A system
that is given by an expression and has no times is not "not time dependent", but its name cannot be used either: the error is the same if the
relation was supplied as the one of the system to its parent (2) and another one in the opposite case (3). -/
theorem C103_unusable {S : Slerp} {parse : N → Option Int → Option Time} {m : Csm N UEdge D} (h : Reachable m) {abs : Bool}
    (hu : ∀ a b e, m.Supplied a b e → Sound m.refTime abs e) {a b : N} (ha : a ∈ m.names) (hb : b ∈ m.names) (hab : a ≠ b) {n : N}
    {timeRef : Option Int} (hparse : parse n (timeRef.or m.refTime) = none) :
    (∀ p r u c, SimplePath m.Adj n m.root (n :: p :: r) → (m.Supplied n p ⟨u, .discrete c⟩ ∨ m.Supplied p n ⟨u, .discrete c⟩) →
      c.dependent = false → m.getNamedAny S parse a b n timeRef = .error (.inl .valueError)) ∧
    (∀ p r u f, SimplePath m.Adj n m.root (n :: p :: r) → m.Supplied n p ⟨u, .expression f false⟩ → f.times = none →
      m.getNamedAny S parse a b n timeRef =
        .error (if f.ref = none ∧ m.refTime ≠ none then .inr .typeError else .inl .valueError)) ∧
    (∀ p r u f, SimplePath m.Adj n m.root (n :: p :: r) → m.Supplied p n ⟨u, .expression f false⟩ → f.times = none →
      m.getNamedAny S parse a b n timeRef =
        .error (if f.ref = none ∧ m.refTime ≠ none then .inr .typeError else .inr .weldxException)) ∧
    (n = m.root ∨ n ∉ m.names → m.getNamedAny S parse a b n timeRef = .error (.inl .valueError)) := by
  have I := h.inv
  have hh : ¬(¬ m.has a = true ∨ ¬ m.has b = true) := by simp [Csm.has, ha, hb]
  have main : ∀ x, m.timeOfAny S n = .error x → m.getNamedAny S parse a b n timeRef = .error x := fun x k => by
    unfold getNamedAny
    rw [if_neg hh, if_neg hab]
    simp only [hparse, k]
  refine ⟨fun p r u c hp he hd => main _ ?_, fun p r u f hp he ht => main _ ?_, fun p r u f hp he ht => main _ ?_, fun hn => main _ ?_⟩
  · have key : ∀ c : TLcs, Sound m.refTime abs ⟨u, .discrete c⟩ → c.dependent = false → m.linkOn n p = some ⟨u, .discrete c⟩ →
        m.timeOfAny S n = .error (.inl .valueError) := fun c hw hd hl =>
      timeOfAny_none h hu hp hl hw ((mag_wf hw.wf hw.unit).2 hd)
    rcases he with he | he
    · exact key c (hu _ _ _ he) hd ((linkOn_supplied I).1 he)
    · exact key c.invert (sound_reverse (hu _ _ _ he)) ((TEdge.reverse_dependent (.discrete c)).trans hd) ((linkOn_supplied I).2 he)
  · exact timeOfAny_none h hu hp ((linkOn_supplied I).1 he) (hu _ _ _ he) ht
  · exact timeOfAny_none h hu hp ((linkOn_supplied I).2 he) (sound_reverse (hu _ _ _ he)) ht
  · have : m.getParent n = .ok none ∨ m.getParent n = .error .valueError := by
      by_cases hr : n = m.root
      · rw [hr]; exact .inl (getParent_root m)
      · rcases hn with hn | hn
        · exact absurd hn hr
        · exact .inr (by simp [getParent, if_neg hr, checkExists, Csm.has, hn, bind, Except.bind])
    rcases this with k | k <;> simp only [timeOfAny, k]

end Csm

namespace NoTimeDemo
open ManagerDemo

/-- a system at rest on the torch -/
noncomputable def tip : UEdge := ⟨1, .discrete ⟨none, none, .static 1, .static ![0, 0, 3]⟩⟩

theorem tip_sound : Sound none false tip where
  wf := ⟨⟨(fun h => by cases h), (fun _ => .inl rfl), (fun _ => rfl), Rotation.one⟩, fun _ => rfl⟩
  unit := by norm_num [tip]
  kind h := by cases h

/-- the tip (2) of the torch (1) in the hall (0), without other systems -/
noncomputable def hand : Csm ℕ UEdge Unit := (addCs 2 1 tip true true (addCs 1 0 torch true true (init 0 100 none)).state).state

theorem hand_edges : hand.edges = [((1, 0), ⟨true, some torch⟩), ((0, 1), ⟨false, reverseOf torch⟩), ((2, 1), ⟨true, some tip⟩),
    ((1, 2), ⟨false, reverseOf tip⟩)] := rfl

theorem hand_supplied {a b : ℕ} {e : UEdge} (h : hand.Supplied a b e) : (a = 1 ∧ b = 0 ∧ e = torch) ∨ (a = 2 ∧ b = 1 ∧ e = tip) := by
  unfold Supplied at h
  rw [hand_edges] at h
  simp only [List.mem_cons, Prod.mk.injEq, Edge.mk.injEq, List.not_mem_nil, or_false, Option.some.injEq] at h
  rcases h with h | h | h | h
  · exact .inl ⟨h.1.1, h.1.2, h.2.2⟩
  · cases h.2.1
  · exact .inr ⟨h.1.1, h.1.2, h.2.2⟩
  · cases h.2.1

theorem hand_reachable : Reachable hand := .addCs _ _ _ _ _ (.addCs _ _ _ _ _ (.init _ _ _))

theorem hand_sound : ∀ a b e, hand.Supplied a b e → Sound hand.refTime false e := fun a b e h => by
  rcases hand_supplied h with ⟨_, _, rfl⟩ | ⟨_, _, rfl⟩
  · exact torch_sound
  · exact tip_sound

theorem hand_torch : hand.Supplied 1 0 torch := by unfold Supplied; rw [hand_edges]; simp

theorem hand_tip : hand.Supplied 2 1 tip := by unfold Supplied; rw [hand_edges]; simp

theorem hand_path : SimplePath hand.Adj 2 0 [2, 1, 0] :=
  ⟨.cons ((adj_iff_supplied hand_reachable.inv).2 ⟨_, .inl hand_tip⟩)
    (.cons ((adj_iff_supplied hand_reachable.inv).2 ⟨_, .inl hand_torch⟩) (.nil 0)), by simp⟩

theorem hand_not_answerable {p : List ℕ} (h : [1, 0] <:+: p) : ¬ hand.Answerable p := by
  rintro (⟨x, a, b, e, _, k, hx⟩ | k)
  · have : ∀ a b, hand.Supplied a b e → False := fun a b h => by
      rcases hand_supplied h with ⟨_, _, rfl⟩ | ⟨_, _, rfl⟩ <;> cases hx
    exact k.elim (this a b) (this b a)
  · obtain ⟨c, hc⟩ := k 1 0 torch h (.inl hand_torch)
    cases hc

/-- the hypotheses of `C102_no_time_expression`, for the torch and for its tip, and of `C103_unusable` -/
example : Reachable hand ∧ SimplePath hand.Adj 1 hand.root [1, 0] ∧ SimplePath hand.Adj 2 0 [2, 1, 0] ∧ 0 ∈ hand.names ∧ 1 ∈ hand.names ∧
    2 ∈ hand.names ∧ (∀ a b e, hand.Supplied a b e → Sound hand.refTime false e) ∧ ¬ hand.Answerable [1, 0] ∧ ¬ hand.Answerable [2, 1, 0] :=
  ⟨hand_reachable, ⟨.cons ((adj_iff_supplied hand_reachable.inv).2 ⟨_, .inl hand_torch⟩) (.nil 0), by simp⟩, hand_path,
    (by show 0 ∈ [0, 1, 2]; simp), (by show 1 ∈ [0, 1, 2]; simp), (by show 2 ∈ [0, 1, 2]; simp), hand_sound,
    hand_not_answerable ⟨[], [], rfl⟩, hand_not_answerable ⟨[2], [], rfl⟩⟩

/-- the hypotheses of `C102_no_time`: a system that is given by an expression is taken at the times of the robot -/
example : Reachable cell ∧ SimplePath cell.Adj 2 0 [2, 1, 0] ∧ cell.Supplied 2 1 torch ∧ cell.Answerable [2, 1, 0] := by
  have hr : Reachable cell := .addCs _ _ _ _ _ (.addCs _ _ _ _ _ (.init _ _ _))
  have h1 : cell.Supplied 1 0 robot := by unfold Supplied; rw [cell_edges]; simp
  have h2 : cell.Supplied 2 1 torch := by unfold Supplied; rw [cell_edges]; simp
  refine ⟨hr, ⟨.cons ((adj_iff_supplied hr.inv).2 ⟨_, .inl h2⟩) (.cons ((adj_iff_supplied hr.inv).2 ⟨_, .inl h1⟩) (.nil 0)), by simp⟩, h2,
    .inl ⟨10, 1, 0, robot, ⟨[2], [], rfl⟩, .inl h1, ?_⟩⟩
  show (10 : ℤ) ∈ [0, 10]
  simp

/-- a system that turns at given times and is moved by an expression -/
noncomputable def screw : UEdge := ⟨1, .expression ⟨some [0, 2], none, halfTurn.orient, fun t => ![0, 0, t]⟩ false⟩

/-- the screw (1) at the root (0) -/
noncomputable def drill : Csm ℕ UEdge Unit := (addCs 1 0 screw true true (init 0 100 none)).state

theorem drill_edges : drill.edges = [((1, 0), ⟨true, some screw⟩), ((0, 1), ⟨false, reverseOf screw⟩)] := rfl

/-- the hypotheses of `C103_named` for a system that is given by an expression -/
example : Reachable drill ∧ (∀ a b e, drill.Supplied a b e → Sound drill.refTime false e) ∧ SimplePath drill.Adj 1 drill.root [1, 0] ∧
    drill.Supplied 1 0 screw ∧ screw.mag.frame.times ≠ none ∧ screw.mag.csmClock drill.refTime = [0, 2] := by
  have hr : Reachable drill := .addCs _ _ _ _ _ (.init _ _ _)
  have h1 : drill.Supplied 1 0 screw := by unfold Supplied; rw [drill_edges]; simp
  refine ⟨hr, fun a b e h => ?_, ⟨.cons ((adj_iff_supplied hr.inv).2 ⟨_, .inl h1⟩) (.nil 0), by simp⟩, h1, (by simp [screw, TEdge.frame, ELcs.frame]), rfl⟩
  have : e = screw := by
    unfold Supplied at h
    rw [drill_edges] at h
    simp only [List.mem_cons, Prod.mk.injEq, Edge.mk.injEq, List.not_mem_nil, or_false, Option.some.injEq] at h
    rcases h with h | h
    · exact h.2.2
    · cases h.2.1
  subst this
  exact ⟨⟨fun _ => ⟨(fun _ => by
      obtain ⟨l, k1, k2, k3, k4, k5⟩ := halfTurn_wf.series rfl
      exact ⟨l, k1, k2, k3, k4, trivial⟩), (fun h => by cases h), (fun h => by cases h), halfTurn_wf.rot⟩, (fun h => by cases h), halfTurn_wf.rot⟩,
    by norm_num [screw], fun _ _ => rfl⟩

/-- **C102.** A query without a time can be refused although the position is known at all times: the tip of the torch in the hall. -/
theorem C102_no_time_refused {S : Slerp} (hS : SlerpOk S) : ∃ m : Csm ℕ UEdge Unit, Reachable m ∧
    (∀ a b e, m.Supplied a b e → Sound m.refTime false e) ∧ (∃ x, m.getAny S 2 0 = .error (.inr x)) ∧
    ∀ t : Int, ∃ s, m.getAt S 2 0 ⟨false, [t], none⟩ none = .ok s := by
  refine ⟨hand, hand_reachable, hand_sound, (C102_no_time_expression hand_reachable hand_path (by show 2 ∈ [0, 1, 2]; simp)
    (by show 0 ∈ [0, 1, 2]; simp) hand_sound (hand_not_answerable ⟨[2], [], rfl⟩)).2.2 (by simp), fun t => ?_⟩
  have ht : (⟨false, [t], none⟩ : Time).ofTime (none.or hand.refTime) = .ok ⟨false, [t], none⟩ := by
    show (⟨false, [t], none⟩ : Time).ofTime none = _
    simp [Time.ofTime, Time.make, Time.monotonic]
  obtain ⟨s, _, h, _⟩ := C102_path hS hand_reachable (a := 2) (b := 0) (by show 2 ∈ [0, 1, 2]; simp) (by show 0 ∈ [0, 1, 2]; simp) ht (by simp)
    (by simp) hand_sound
  exact ⟨s, h⟩

end NoTimeDemo

theorem addNoTimeU_answer {S : Slerp} {r : Option Int} {u : ℝ} {f : ELcs} : ∀ {es : List UEdge} {acc : UAny},
    addNoTimeU S r es acc = .ok (.expression u f) → es = [] ∧ acc = .expression u f
  | [], acc, h => by
    simp only [addNoTimeU, Except.ok.injEq] at h
    exact ⟨rfl, h⟩
  | e :: es, acc, h => by
    simp only [addNoTimeU] at h
    cases hc : e.noTime r with
    | error x => rw [hc] at h; cases h
    | ok c =>
      rw [hc] at h
      cases ha : acc.add S c with
      | error x => simp only [bind, Except.bind, ha] at h; cases h
      | ok d =>
        simp only [bind, Except.bind, ha] at h
        obtain ⟨_, rfl⟩ := addNoTimeU_answer h
        unfold UAny.add at ha
        split at ha
        · split at ha <;> cases ha
        · cases ha

/-- **C102, C103.** A system that is answered as an expression has no times. -/
theorem C102_expression_untimed {S : Slerp} {csmRef minRef : Option Int} {es : List UEdge} {u : ℝ} {f : ELcs}
    (h : getCsAny S csmRef minRef es = .ok (.expression u f)) : (∃ e, es = [e]) ∧ (UAny.expression u f).time = .ok none := by
  unfold getCsAny at h
  split at h
  · cases h
  · split at h <;> cases h
  · rename_i ht
    cases es with
    | nil => cases h
    | cons e es =>
      simp only [getCsNoTimeU] at h
      cases hc : e.noTime csmRef with
      | error x => rw [hc] at h; cases h
      | ok c =>
        rw [hc] at h
        obtain ⟨rfl, rfl⟩ := addNoTimeU_answer h
        refine ⟨⟨e, rfl⟩, ?_⟩
        show f.frame.time = .ok none
        obtain ⟨w, g⟩ := e
        cases g with
        | discrete c =>
          unfold UEdge.noTime TEdge.noTime at hc
          split at hc
          · cases hc
          · cases hc
          · rename_i hh; split at hh <;> cases hh
        | expression k b =>
          have hk : k = f := by
            unfold UEdge.noTime TEdge.noTime at hc
            cases b <;> simp only at hc
            · split at hc
              · cases hc
              · cases hc
              · rename_i hh; split at hh <;> cases hh; cases hc; rfl
            · split at hc
              · cases hc
              · cases hc
              · rename_i hh; split at hh <;> cases hh
          subst hk
          unfold timeUnion at ht
          simp only [List.map_cons, List.map_nil, List.mapM_cons, List.mapM_nil] at ht
          change (do let ts ← (do let a ← k.frame.time; let b ← (pure [] : Except TimeError _); pure (a :: b)); _) = _ at ht
          cases hk : k.frame.time with
          | error x => simp only [hk, bind, Except.bind] at ht; cases ht
          | ok o => cases o with
            | none => rfl
            | some t =>
              simp only [hk, bind, Except.bind, pure, Except.pure, List.filterMap_cons, id, List.filterMap_nil] at ht
              split at ht
              · cases ht
              · split at ht <;> cases ht

/-- the hypothesis holds for the torch of `Verif/TimeLcs/Manager.lean` -/
example (S : Slerp) : ∃ f, getCsAny S none none [ManagerDemo.torch] = .ok (.expression 1000 f) := ⟨_, rfl⟩

end Weldx
