import Verif.Csm.Merge

/-!
# C14, C15, C16: merging managers, taking them apart, reference times
-/

set_option linter.unusedSectionVars false
set_option linter.unusedSimpArgs false

namespace Weldx.Csm
variable {N S D L : Type} [DecidableEq N] [LcsLike S]

/-! ### C14 -/

/-- **C14.** `merge` is accepted exactly if the time references fit, exactly one system name is shared
and no data name is shared. -/
theorem C14_merge_accepted {m o : Csm N S D} (h : Reachable m) :
    (∃ m', merge o m = .ok () m') ↔ m.mergeRejected o = false ∧
      (∃! c, c ∈ m.names ∧ c ∈ o.names) ∧ ∀ d ∈ o.dataNames, d ∉ m.dataNames := by
  constructor
  · rintro ⟨m', hm⟩
    rcases merge_cases m o with ⟨e, he⟩ | ⟨c, dm, dn, hrej, hcm, hco, hone, hdd, hdm, hdn, he⟩
    · rw [he] at hm; cases hm
    · exact ⟨hrej, ⟨c, ⟨hcm, hco⟩, fun x hx => hone x hx.1 hx.2⟩, hdd⟩
  · rintro ⟨hrej, ⟨c, ⟨hcm, hco⟩, hu⟩, hdd⟩
    have hf : m.names.filter (fun n => n ∈ o.names) = [c] := by
      have hnd := h.inv.nodesNodup.filter (fun n => decide (n ∈ o.names))
      have hmem : ∀ x, x ∈ m.names.filter (fun n => n ∈ o.names) ↔ x = c := by
        intro x
        simp only [List.mem_filter, decide_eq_true_eq]
        exact ⟨fun hx => hu x hx, fun e => e ▸ ⟨hcm, hco⟩⟩
      generalize m.names.filter (fun n => decide (n ∈ o.names)) = f at hnd hmem
      match f, hnd, hmem with
      | [], _, hmem => exact absurd ((hmem c).2 rfl) (by simp)
      | [x], _, hmem => rw [(hmem x).1 (by simp)]
      | x :: y :: t, hnd, hmem =>
        have h1 := (hmem x).1 (by simp)
        have h2 := (hmem y).1 (by simp)
        subst h1; subst h2
        simp at hnd
    obtain ⟨dm, hdm⟩ := Dict.get?_isSome.2 hcm
    obtain ⟨dn, hdn⟩ := Dict.get?_isSome.2 hco
    have hany : o.dataNames.any (fun d => decide (d ∈ m.dataNames)) = false := by
      rw [Bool.eq_false_iff]; intro hc
      simp only [List.any_eq_true, decide_eq_true_eq] at hc
      obtain ⟨d, h1, h2⟩ := hc
      exact hdd d h1 h2
    have : merge o m = .ok () { m with
        nodes := Dict.set (Dict.update m.nodes o.nodes) c (Dict.update dm dn)
        edges := Dict.update m.edges o.edges
        subs := m.subs ++ [.mk o.name o.root c o.refTime o.names o.dataNames o.subs] } := by
      simp only [merge, Py.get_bind, Py.ite_apply, hrej, hf, hany, Bool.false_eq_true, if_false, hdm,
        hdn]
      rfl
    exact ⟨_, this⟩

/-- **C14.** After a successful merge the systems, the supplied relations and the data are the unions;
name, root and reference time are those of the manager merged into. -/
theorem C14_merge_union {m o m' : Csm N S D} (hm : Reachable m) (ho : Reachable o)
    (h : merge o m = .ok () m') :
    (∀ n, n ∈ m'.names ↔ n ∈ m.names ∨ n ∈ o.names) ∧
    (∀ a b s, m'.Supplied a b s ↔ m.Supplied a b s ∨ o.Supplied a b s) ∧
    (∀ n d v, m'.StoredAt n d v ↔ m.StoredAt n d v ∨ o.StoredAt n d v) ∧
    m'.name = m.name ∧ m'.root = m.root ∧ m'.refTime = m.refTime := by
  obtain ⟨c, E⟩ := merge_effect hm.inv ho.inv h
  exact ⟨E.systems, fun a b s => E.edges a b _, E.data, E.name, E.root, E.refTime⟩

/-- **C14.** Transformations that could be computed in one of the two managers are unchanged, and
transformations from one to the other are the composition through the common system. -/
theorem C14_merge_transformations [Group L] (ev : S → Except CsmError L) {m o m' : Csm N S D}
    (hm : Reachable m) (ho : Reachable o) (Cm : m.Coherent ev) (Co : o.Coherent ev)
    (h : merge o m = .ok () m') :
    (∀ a ∈ m.names, ∀ b ∈ m.names, m'.getCs ev a (some b) = m.getCs ev a (some b)) ∧
    (∀ a ∈ o.names, ∀ b ∈ o.names, m'.getCs ev a (some b) = o.getCs ev a (some b)) ∧
    (∀ c, c ∈ m.names → c ∈ o.names → ∀ a ∈ m.names, ∀ b ∈ o.names, ∃ x y,
      m.getCs ev a (some c) = .ok x ∧ o.getCs ev c (some b) = .ok y ∧
      m'.getCs ev a (some b) = .ok (x * y)) := by
  have hR : Reachable m' := by
    have := Reachable.merge hm ho
    rwa [h, Res.state_ok] at this
  obtain ⟨c, E⟩ := merge_effect hm.inv ho.inv h
  have C' : m'.Coherent ev := by
    intro a b s hs
    rcases (E.edges a b _).1 hs with hs | hs
    · exact Cm a b s hs
    · exact Co a b s hs
  have k1 : ∀ a ∈ m.names, ∀ b ∈ m.names, m'.getCs ev a (some b) = m.getCs ev a (some b) := by
    intro a ha b hb
    obtain ⟨p, hp⟩ := hm.inv.tree.exists_path a b ha hb
    exact getCs_congr hm.inv hR.inv Cm C' ha hb ((E.systems a).2 (.inl ha))
      ((E.systems b).2 (.inl hb)) hp fun x _ y _ s hs => (E.edges x y _).2 (.inl hs)
  have k2 : ∀ a ∈ o.names, ∀ b ∈ o.names, m'.getCs ev a (some b) = o.getCs ev a (some b) := by
    intro a ha b hb
    obtain ⟨p, hp⟩ := ho.inv.tree.exists_path a b ha hb
    exact getCs_congr ho.inv hR.inv Co C' ha hb ((E.systems a).2 (.inr ha))
      ((E.systems b).2 (.inr hb)) hp fun x _ y _ s hs => (E.edges x y _).2 (.inr hs)
  refine ⟨k1, k2, fun c hc hc' a ha b hb => ?_⟩
  obtain ⟨_, x, y, h1, _, h2, h3⟩ := C07_group_laws ev hR C' ((E.systems a).2 (.inl ha))
    ((E.systems c).2 (.inl hc)) ((E.systems b).2 (.inr hb))
  exact ⟨x, y, by rw [← k1 a ha c hc, h1], by rw [← k2 c hc' b hb, h2], h3⟩

/-- second manager for the examples: `3 - 11`, with data `110` at 11 and `103` at 3 -/
def demo2 : Csm ℕ (Frame ℤ) (List (Vec3 ℤ)) :=
  (assignData (L := Frame ℤ) Except.ok Frame.act [![5, 5, 5]] 103 3 none
    (assignData (L := Frame ℤ) Except.ok Frame.act [![1, 1, 1]] 110 11 none
      (addCs 3 11 qz true true (init 11 8 none)).state).state).state

theorem demo2_reachable : Reachable demo2 :=
  .assignData _ _ _ _ _ _ (.assignData _ _ _ _ _ _ (.addCs _ _ _ _ _ (.init _ _ _)))

example : Reachable demo ∧ Reachable demo2 ∧ ∃ m', merge demo2 demo = .ok () m' ∧
    m'.names = [0, 1, 2, 3, 4, 11] ∧ m'.dataNames = [100, 103, 110] ∧ m'.subs.length = 1 :=
  ⟨demo_reachable, demo2_reachable, _, rfl, rfl, rfl, rfl⟩

/-! ### C15 -/

/-- Managers with the same content give the same answers. -/
theorem C15_same_content_same_answers [Group L] (ev : S → Except CsmError L) {m m' : Csm N S D}
    (h : Reachable m) (h' : Reachable m') (C : m.Coherent ev) (hs : SameAs m m') :
    (∀ a b, m'.getCs ev a (some b) = m.getCs ev a (some b)) ∧
    (∀ n, n ∈ m.names → m'.getParent n = m.getParent n) ∧
    (∀ d, m'.findData d = m.findData d) := by
  have hadj : ∀ a b, m'.Adj a b ↔ m.Adj a b := by
    intro a b
    rw [adj_iff_supplied h.inv, adj_iff_supplied h'.inv]
    simp only [hs.relations]
  refine ⟨fun a b => ?_, fun n hn => ?_, fun d => ?_⟩
  · by_cases hab : a ∈ m.names ∧ b ∈ m.names
    · exact C06_order_independent ev h h' C (fun a b s => (hs.relations a b s).symm) hab.1 hab.2
        ((hs.systems a).2 hab.1) ((hs.systems b).2 hab.2)
    · have h1 : a ∉ m.names ∨ b ∉ m.names := by tauto
      have h2 : a ∉ m'.names ∨ b ∉ m'.names := by rwa [hs.systems, hs.systems]
      rw [getCs_missing h1, getCs_missing h2]
  · by_cases hr : n = m.root
    · have hr' : n = m'.root := by rw [hs.root, hr]
      rw [(C09_parent h n).1 hr, (C09_parent h' n).1 hr']
    · obtain ⟨p, t, h1, h2⟩ := (C09_parent h n).2.1 hn hr
      obtain ⟨p', t', h3, h4⟩ := (C09_parent h' n).2.1 ((hs.systems n).2 hn) (by rwa [hs.root])
      rw [hs.root] at h4
      have h4' : SimplePath m.Adj n m.root (n :: p' :: t') :=
        ⟨h4.1.mono fun a _ b _ h => (hadj a b).1 h, h4.2⟩
      have e := h.inv.tree.path_unique _ _ _ _ h2 h4'
      simp at e
      rw [h1, h3, e.1]
  · exact findData_congr h.inv h'.inv fun cs v => (hs.data cs d v).symm

theorem forall₂_append_left {α β : Type} {R : α → β → Prop} {a b : List α} {l : List β}
    (h : List.Forall₂ R (a ++ b) l) : ∃ l1 l2, List.Forall₂ R b l2 ∧ l = l1 ++ l2 := by
  induction a generalizing l with
  | nil => exact ⟨[], l, h, rfl⟩
  | cons x t ih =>
    cases h with
    | cons h1 h2 =>
      obtain ⟨l1, l2, h3, rfl⟩ := ih h2
      exact ⟨_ :: l1, l2, h3, rfl⟩

/-- **C15.** The most recently merged manager can be extracted again unchanged, whatever the history of
the manager it was merged into. -/
theorem C15_last_merged_is_extracted {m o m' : Csm N S D} (hm : Reachable m) (ho : Reachable o)
    (h : merge o m = .ok () m') : ∃ l o', m'.subsystems = .ok (l ++ [o']) ∧ SameAs o o' := by
  obtain ⟨c, E⟩ := merge_effect hm.inv ho.inv h
  have I' := hm.inv.merge ho.inv
  rw [h, Res.state_ok] at I'
  obtain ⟨l, hl, hf⟩ := subsystems_ok I'
  rw [E.subs] at hf
  obtain ⟨l1, l2, hf2, rfl⟩ := forall₂_append_left hf
  cases hf2 with
  | cons h1 h2 =>
  cases h2
  obtain ⟨ds, hds, rfl⟩ := h1
  refine ⟨l1, _, hl, ?_⟩
  refine sameAs_part I' ho.inv E.common_right hds (fun n hn => (E.systems n).2 (.inr hn)) ?_ ?_ ?_
  · intro a ha b hb e
    rw [E.edges]
    refine ⟨fun h => h.elim (fun h => ?_) id, .inr⟩
    obtain ⟨h1, h2, h3⟩ := edge_mem hm.inv h
    exact absurd ((E.only_common a h1 ha).trans (E.only_common b h2 hb).symm) h3
  · intro n hn hnc d v
    rw [E.data]
    exact ⟨fun h => h.elim (fun h => absurd (E.only_common n h.name_mem hn) hnc) id, .inr⟩
  · intro d v
    rw [E.data]
    exact ⟨fun h => h.1.elim (fun h' => absurd (h'.data_mem hm.inv) (E.data_disjoint d h.2)) id,
      fun h => ⟨.inr h, h.data_mem ho.inv⟩⟩

/-- **C15** (partial: the last hypothesis is needed, see the counterexample). Merging any number of
managers into one without subsystems and calling `unmerge` returns exactly these managers, in the order
of merging, and restores the original one - provided a manager carries no data at a system that it
shares with an earlier merged one (unless the original manager has that system, too). -/
theorem C15_unmerge_restores_partial {m₀ m : Csm N S D} {os : List (Csm N S D)} (h₀ : Reachable m₀)
    (hs : m₀.subs = []) (hos : ∀ o ∈ os, Reachable o) (h : mergeAll os m₀ = .ok () m)
    (hdata : os.Pairwise fun o o' => ∀ n d v, n ∉ m₀.names → n ∈ o.names → ¬ o'.StoredAt n d v) :
    ∃ l m', unmerge m = .ok l m' ∧ List.Forall₂ SameAs os l ∧ SameAs m₀ m' := by
  have I₀ := h₀.inv
  obtain ⟨ps, hps, M⟩ := Merged.all I₀ os m₀ m [] (Merged.start I₀ hs) (fun o ho => (hos o ho).inv) h
  simp at hps
  subst hps
  obtain ⟨l, hl, hf⟩ := subsystems_ok M.inv
  obtain ⟨m', hm', hsame⟩ := M.restore I₀ hs
  refine ⟨l, m', ?_, ?_, hsame⟩
  · simp only [unmerge, Py.get_bind, hl, Py.lift_ok_bind]
    rw [Py.bind_ok hm']; rfl
  · rw [M.subs] at hf
    have key : ∀ suf pre l, ps = pre ++ suf →
        List.Forall₂ (fun sub o => ∃ ds, Dict.get? m.nodes sub.common = some ds ∧ o = m.part sub ds)
          (suf.map fun p => SubInfo.mk p.1.name p.1.root p.2 p.1.refTime p.1.names p.1.dataNames
            p.1.subs) l →
        List.Forall₂ SameAs (suf.map Prod.fst) l := by
      intro suf
      induction suf with
      | nil => intro pre l _ hf; cases hf; exact .nil
      | cons p t ih =>
        intro pre l hps hf
        cases hf with
        | cons h1 h2 =>
          obtain ⟨ds, hds, rfl⟩ := h1
          refine .cons (M.extract I₀ hps (fun q hq n d v => ?_) hds) (ih (pre ++ [p]) _ (by simp [hps]) h2)
          rw [hps, List.map_append, List.pairwise_append, List.map_cons, List.pairwise_cons] at hdata
          exact hdata.2.1.1 q.1 (List.mem_map.2 ⟨q, hq, rfl⟩) n d v
    exact key ps [] l rfl hf

/-- **C15.** A single merge is always undone completely by `unmerge`. -/
theorem C15_merge_unmerge {m o m' : Csm N S D} (hm : Reachable m) (hs : m.subs = [])
    (ho : Reachable o) (h : merge o m = .ok () m') :
    ∃ o' m'', unmerge m' = .ok [o'] m'' ∧ SameAs o o' ∧ SameAs m m'' := by
  obtain ⟨l, m'', h1, h2, h3⟩ := C15_unmerge_restores_partial (os := [o]) (m := m') hm hs (by simpa using ho)
    (by simp only [mergeAll]; rw [Py.bind_ok h]; rfl) (by simp)
  cases h2 with
  | cons h4 h5 =>
    cases h5
    exact ⟨_, m'', h1, h4, h3⟩

/-- third manager for the examples: `4 - 12` -/
def demo3 : Csm ℕ (Frame ℤ) (List (Vec3 ℤ)) := (addCs 12 4 qx true true (init 4 9 none)).state

theorem demo3_reachable : Reachable demo3 := .addCs _ _ _ _ _ (.init _ _ _)

example : ∃ m, demo.subs = [] ∧ mergeAll [demo2, demo3] demo = .ok () m ∧
    m.names = [0, 1, 2, 3, 4, 11, 12] ∧
    [demo2, demo3].Pairwise (fun o o' => ∀ n d v, n ∉ demo.names → n ∈ o.names → ¬ o'.StoredAt n d v) := by
  refine ⟨_, rfl, rfl, rfl, .cons ?_ (.cons (by simp) .nil)⟩
  simp only [List.mem_singleton, forall_eq]
  intro n d v h0 h2 h3
  have h2' : n ∈ [11, 3] := h2
  have h3' : n ∈ [4, 12] := h3.name_mem
  simp at h2' h3'
  omega

/-- first merged manager of the counterexample: `0 - 1` -/
def leakA : Csm ℕ Unit Unit := (addCs 1 0 () true true (init 0 101 none)).state
/-- second merged manager of the counterexample: only system `1`, with data `10` -/
def leakB : Csm ℕ Unit Unit := (assignData unitEv (fun _ d => d) () 10 1 none (init 1 102 none)).state

/-- **C15, counterexample.** If a manager is merged at a system that came with an earlier merged one,
`unmerge` returns the earlier one with data that it never had. -/
theorem C15_unmerge_counterexample :
    ∃ (m₀ : Csm ℕ Unit Unit) (os : List (Csm ℕ Unit Unit)) (m : Csm ℕ Unit Unit), Reachable m₀ ∧
      m₀.subs = [] ∧ (∀ o ∈ os, Reachable o) ∧ mergeAll os m₀ = .ok () m ∧
      ∃ l m', unmerge m = .ok l m' ∧ ¬ List.Forall₂ SameAs os l := by
  refine ⟨init 0 100 none, [leakA, leakB], _, .init _ _ _, rfl, ?_, rfl, _, _, rfl, ?_⟩
  · intro o ho
    rcases List.mem_cons.1 ho with rfl | ho
    · exact .addCs _ _ _ _ _ (.init _ _ _)
    · rcases List.mem_singleton.1 ho with rfl
      exact .assignData _ _ _ _ _ _ (.init _ _ _)
  · intro hf
    cases hf with
    | cons h1 h2 =>
      have := (h1.data 1 10 ()).1 ⟨_, rfl, rfl⟩
      obtain ⟨ds, hd1, hd2⟩ := this
      have hd1' : some ([] : List (ℕ × Unit)) = some ds := hd1
      cases hd1'
      cases hd2

/-! ### C16 -/

/-- A manager without own reference time that has time dependent systems with and without reference
time. -/
def MixedTimes (m : Csm N S D) : Prop :=
  m.refTime = none ∧ ∃ a b s a' b' s', m.Supplied a b s ∧ m.Supplied a' b' s' ∧
    LcsLike.isTimeDependent s = true ∧ LcsLike.isTimeDependent s' = true ∧
    LcsLike.refTime s ≠ none ∧ LcsLike.refTime s' = none

theorem mem_lcsTimeDependent {m : Csm N S D} {s : S} :
    s ∈ m.lcsTimeDependent ↔ ∃ a b, m.Supplied a b s ∧ LcsLike.isTimeDependent s = true := by
  simp only [lcsTimeDependent, lcs, List.mem_filter, List.mem_filterMap, Supplied]
  constructor
  · rintro ⟨⟨⟨⟨a, b⟩, ⟨d, t⟩⟩, h1, h2⟩, h3⟩
    cases d
    · simp at h2
    · simp at h2; subst h2
      exact ⟨a, b, h1, h3⟩
  · rintro ⟨a, b, h1, h2⟩
    exact ⟨⟨_, h1, by simp⟩, h2⟩

theorem usesAbsolute_iff {m : Csm N S D} : m.usesAbsoluteTimes = true ↔
    m.refTime ≠ none ∨ ∃ a b s, m.Supplied a b s ∧ LcsLike.isTimeDependent s = true ∧
      LcsLike.refTime s ≠ none := by
  simp only [usesAbsoluteTimes, Bool.or_eq_true, List.any_eq_true, mem_lcsTimeDependent,
    Option.isSome_iff_ne_none]
  constructor
  · rintro (⟨s, ⟨a, b, h1, h2⟩, h3⟩ | h)
    · exact .inr ⟨a, b, s, h1, h2, h3⟩
    · exact .inl h
  · rintro (h | ⟨a, b, s, h1, h2, h3⟩)
    · exact .inr h
    · exact .inl ⟨s, ⟨a, b, h1, h2⟩, h3⟩

/-- The manager contains time dependent systems. -/
def HasTimed (m : Csm N S D) : Prop :=
  ∃ a b s, m.Supplied a b s ∧ LcsLike.isTimeDependent s = true

/-- The manager contains time dependent systems with reference time. -/
def HasTimedRef (m : Csm N S D) : Prop :=
  ∃ a b s, m.Supplied a b s ∧ LcsLike.isTimeDependent s = true ∧ LcsLike.refTime s ≠ none

theorem hasTimed_iff {m : Csm N S D} : m.lcsTimeDependent.length > 0 ↔ m.HasTimed := by
  rw [gt_iff_lt, List.length_pos_iff_exists_mem]
  simp only [mem_lcsTimeDependent, HasTimed]
  constructor
  · rintro ⟨s, a, b, h⟩; exact ⟨a, b, s, h⟩
  · rintro ⟨a, b, s, h⟩; exact ⟨s, a, b, h⟩

/-- **C16.** `add_cs` accepts a system exactly if it exists as neighbour or its reference exists, and
the system is static, or is the first time dependent one, or the manager has a reference time, or it
has a reference time exactly if the others have. -/
theorem C16_add_accepted {m : Csm N S D} (h : Reachable m) (n ref : N) (s : S) (dir lsc : Bool) :
    (∃ m', addCs n ref s dir lsc m = .ok () m') ↔
      (ref ∈ m.names ∧ (n ∈ m.names → m.Adj n ref)) ∧
      (LcsLike.isTimeDependent s = false ∨ ¬ m.HasTimed ∨ m.refTime ≠ none ∨
        (LcsLike.refTime s ≠ none ↔ m.HasTimedRef)) := by
  rw [C12_add_succeeds h, and_comm]
  refine and_congr_right fun _ => ?_
  have hu := usesAbsolute_iff (m := m)
  have ht := hasTimed_iff (m := m)
  simp only [addCsRejected, gt_iff_lt]
  rw [gt_iff_lt] at ht
  by_cases h1 : LcsLike.isTimeDependent s = true
  · by_cases h2 : m.HasTimed
    · have h2' := ht.2 h2
      cases h3 : m.refTime with
      | some t =>
        have : m.usesAbsoluteTimes = true := hu.2 (.inl (by simp [h3]))
        simp [h1, h2', this, h3]
      | none =>
        rw [h3] at hu
        have hu' : m.usesAbsoluteTimes = true ↔ m.HasTimedRef := by rw [hu]; simp [HasTimedRef]
        rw [← hu']
        cases h4 : LcsLike.refTime s <;> cases h5 : m.usesAbsoluteTimes <;> simp [h1, h2, h2']
    · have h2' : ¬ 0 < m.lcsTimeDependent.length := fun hh => h2 (ht.1 hh)
      simp [h2, h2']
  · simp [h1]

/-- **C16.** The time reference test of `merge`: it accepts a manager without time dependent systems;
into a manager with reference time it accepts only managers that use no absolute times or have the same
reference time; into a manager without reference time it accepts those that use absolute times exactly
if it does itself. -/
theorem C16_merge_accepted {m o : Csm N S D} : m.mergeRejected o = false ↔
    ¬ o.HasTimed ∨ (m.refTime ≠ none ∧ (o.refTime = m.refTime ∨ (o.refTime = none ∧ ¬ o.HasTimedRef))) ∨
    (m.refTime = none ∧ (m.HasTimedRef ↔ (o.refTime ≠ none ∨ o.HasTimedRef))) := by
  have hu := usesAbsolute_iff (m := m)
  have hu' : o.usesAbsoluteTimes = true ↔ o.refTime ≠ none ∨ o.HasTimedRef := usesAbsolute_iff
  have ht := hasTimed_iff (m := o)
  simp only [mergeRejected, gt_iff_lt]
  rw [gt_iff_lt] at ht
  by_cases h2 : o.HasTimed
  · have h2' := ht.2 h2
    cases h3 : m.refTime with
    | some t =>
      have : m.usesAbsoluteTimes = true := hu.2 (.inl (by simp [h3]))
      cases h5 : o.usesAbsoluteTimes
      · rw [h5] at hu'
        simp at hu'
        simp [h2, h2', this, h3, hu'.1, hu'.2]
      · rw [h5] at hu'
        simp only [true_iff] at hu'
        have h6 : ¬ (o.refTime = none ∧ ¬ o.HasTimedRef) := by tauto
        rw [or_iff_left h6]
        simp [h2, h2', this, eq_comm (a := some t)]
    | none =>
      rw [h3] at hu
      have hu2 : m.usesAbsoluteTimes = true ↔ m.HasTimedRef := by rw [hu]; simp [HasTimedRef]
      rw [← hu2, ← hu']
      cases h4 : m.usesAbsoluteTimes <;> cases h5 : o.usesAbsoluteTimes <;> simp [h2, h2']
  · have h2' : ¬ 0 < o.lcsTimeDependent.length := fun hh => h2 (ht.1 hh)
    simp [h2, h2']

theorem MixedTimes.mono {m m' : Csm N S D} (h : m'.MixedTimes) (hr : m'.refTime = m.refTime)
    (hs : ∀ a b s, m'.Supplied a b s → m.Supplied a b s) : m.MixedTimes := by
  obtain ⟨h0, a, b, s, a', b', s', h1, h2, h3⟩ := h
  exact ⟨hr ▸ h0, a, b, s, a', b', s', hs _ _ _ h1, hs _ _ _ h2, h3⟩

/-- **C16** (partial: `merge` only with managers that have no reference time of their own; see the
counterexample). No call introduces a mixture of time dependent systems with and without reference time
into a manager without own reference time. -/
theorem C16_no_mixture_partial {m : Csm N S D} (h : Reachable m) (hm : ¬ m.MixedTimes) :
    (∀ n ref s dir lsc, ¬ (addCs n ref s dir lsc m).state.MixedTimes) ∧
    (∀ n b, ¬ (deleteCs n b m).state.MixedTimes) ∧
    (∀ (L : Type) (_ : Group L) (ev : S → Except CsmError L) act data d ref target,
      ¬ (assignData ev act data d ref target m).state.MixedTimes) ∧
    (∀ d, ¬ (deleteData d m).state.MixedTimes) ∧
    ¬ (removeSubsystems m).state.MixedTimes ∧ ¬ (unmerge m).state.MixedTimes ∧
    (∀ o, Reachable o → ¬ o.MixedTimes → o.refTime = none → ¬ (merge o m).state.MixedTimes) := by
  have I := h.inv
  have hrem : ∃ m', removeSubsystems m = .ok () m' ∧ ¬ m'.MixedTimes := by
    obtain ⟨ns, del, h1, _⟩ := removeSubsystems_ok I
    refine ⟨_, h1, fun hx => hm (MixedTimes.mono hx rfl fun a b s hs => ?_)⟩
    exact (List.mem_filter.1 (show _ ∈ List.filter _ m.edges from hs)).1
  refine ⟨fun n ref s dir lsc => ?_, fun n b => ?_, fun L _ ev act data d ref target => ?_,
    fun d => ?_, ?_, ?_, fun o ho hmo hro => ?_⟩
  · have key : ∀ m' : Csm N S D, m'.refTime = m.refTime → (∃ x y, x ≠ y ∧
        m'.edges = linkEdges m.edges x y s) → m.addCsRejected s = false → ¬ m'.MixedTimes := by
      rintro m' hr ⟨x, y, hxy, he⟩ hrej ⟨h0, a, b, t, a', b', t', h1, h2, h3, h4, h5, h6⟩
      rw [hr] at h0
      have hs1 := (supplied_link I hxy).1 (by rw [Supplied, he] at h1; exact h1)
      have hs2 := (supplied_link I hxy).1 (by rw [Supplied, he] at h2; exact h2)
      have hlen : ∀ {a b t}, m.Supplied a b t → LcsLike.isTimeDependent t = true →
          0 < m.lcsTimeDependent.length := fun hs ht =>
        List.length_pos_of_mem (mem_lcsTimeDependent.2 ⟨_, _, hs, ht⟩)
      simp only [addCsRejected] at hrej
      rcases hs1 with ⟨_, _, rfl⟩ | ⟨_, _, hs1⟩ <;> rcases hs2 with ⟨_, _, rfl⟩ | ⟨_, _, hs2⟩
      · exact h5 h6
      · -- the new one has a reference time, an old one has not
        have hl := hlen hs2 h4
        have hu : m.usesAbsoluteTimes = true := by
          by_contra hu
          have : (LcsLike.refTime t).isSome = true := Option.isSome_iff_ne_none.2 h5
          simp [h3, hl, this, hu] at hrej
        rcases usesAbsolute_iff.1 hu with hu | ⟨_, _, u, hu1, hu2, hu3⟩
        · exact hu h0
        · exact hm ⟨h0, _, _, u, _, _, t', hu1, hs2, hu2, h4, hu3, h6⟩
      · have hl := hlen hs1 h3
        have hu : m.usesAbsoluteTimes = true := usesAbsolute_iff.2 (.inr ⟨_, _, t, hs1, h3, h5⟩)
        simp [h4, hl, h6, hu, h0] at hrej
      · exact hm ⟨h0, _, _, t, _, _, t', hs1, hs2, h3, h4, h5, h6⟩
    rcases addCs_cases I n ref s dir lsc with ⟨h, _⟩ | ⟨h, _⟩ | ⟨h1, h2, h⟩ | ⟨h1, h2, h3, h⟩
    · rw [h]; exact hm
    · rw [h]; exact hm
    · rw [h]
      exact key _ rfl ⟨_, _, addDir_ne (fun e => I.tree.irrefl n (by simpa [← e] using h2)), rfl⟩ h1
    · rw [h]
      exact key _ rfl ⟨_, _, addDir_ne (fun e : n = ref => h2 (e ▸ h3)), rfl⟩ h1
  · rcases deleteCs_cases I n b with ⟨_, h⟩ | ⟨_, h⟩ | ⟨_, _, _, _, h⟩ | ⟨_, _, _, del, _, _, _, h⟩
    · rw [h]; exact hm
    · rw [h]; exact hm
    · rw [h]; exact hm
    · rw [h]
      exact fun hx => hm (MixedTimes.mono hx rfl fun a b s hs =>
        (List.mem_filter.1 (show _ ∈ List.filter _ m.edges from hs)).1)
  · rcases assignData_cases ev act data d ref target m with ⟨e, h⟩ | ⟨_, _, _, _, _, _, _, h⟩
    · rw [h]; exact hm
    · rw [h]; exact fun hx => hm (MixedTimes.mono hx rfl fun a b s hs => hs)
  · rcases deleteData_cases d I with ⟨_, h⟩ | ⟨_, _, _, _, h⟩
    · rw [h]; exact fun hx => hm (MixedTimes.mono hx rfl fun a b s hs => hs)
    · rw [h]; exact fun hx => hm (MixedTimes.mono hx rfl fun a b s hs => hs)
  · obtain ⟨m', h1, h2⟩ := hrem
    rw [h1]; exact h2
  · obtain ⟨m', h1, h2⟩ := hrem
    obtain ⟨l, hl, _⟩ := subsystems_ok I
    simp only [unmerge, Py.get_bind, hl, Py.lift_ok_bind]
    rw [Py.bind_ok h1]; exact h2
  · cases hmg : merge o m with
    | err e s =>
      have := (C11_rejected_unchanged (o := o) h).2.2.2 (by rw [hmg]; trivial)
      rw [hmg] at this
      rw [this]; exact hm
    | ok u m' =>
      obtain ⟨c, E⟩ := merge_effect I ho.inv hmg
      rintro ⟨h0, a, b, t, a', b', t', h1, h2, h3, h4, h5, h6⟩
      have h0 : m.refTime = none := E.refTime ▸ h0
      have hrej := E.rejected
      simp only [mergeRejected] at hrej
      have hlen : ∀ {a b t}, o.Supplied a b t → LcsLike.isTimeDependent t = true →
          0 < o.lcsTimeDependent.length := fun hs ht =>
        List.length_pos_of_mem (mem_lcsTimeDependent.2 ⟨_, _, hs, ht⟩)
      rcases (E.edges _ _ _).1 h1 with h1 | h1 <;> rcases (E.edges _ _ _).1 h2 with h2 | h2
      · exact hm ⟨h0, _, _, t, _, _, t', h1, h2, h3, h4, h5, h6⟩
      · have hu : m.usesAbsoluteTimes = true := usesAbsolute_iff.2 (.inr ⟨_, _, t, h1, h3, h5⟩)
        have hu' : ¬ o.usesAbsoluteTimes = true := by
          intro hu'
          rcases usesAbsolute_iff.1 hu' with hu' | ⟨_, _, u, hu1, hu2, hu3⟩
          · exact hu' hro
          · exact hmo ⟨hro, _, _, u, _, _, t', hu1, h2, hu2, h4, hu3, h6⟩
        simp [hlen h2 h4, hu, hu', h0] at hrej
      · have hu : o.usesAbsoluteTimes = true := usesAbsolute_iff.2 (.inr ⟨_, _, t, h1, h3, h5⟩)
        have hu' : ¬ m.usesAbsoluteTimes = true := by
          intro hu'
          rcases usesAbsolute_iff.1 hu' with hu' | ⟨_, _, u, hu1, hu2, hu3⟩
          · exact hu' h0
          · exact hm ⟨h0, _, _, u, _, _, t', hu1, h2, hu2, h4, hu3, h6⟩
        simp [hlen h1 h3, hu, hu', h0] at hrej
      · exact hmo ⟨hro, _, _, t, _, _, t', h1, h2, h3, h4, h5, h6⟩

/-- stored systems reduced to their time information: time dependent with or without reference time -/
structure TimeInfo where
  ref : Option Int
  deriving DecidableEq

instance : LcsLike TimeInfo := ⟨id, fun _ => false, fun _ => true, TimeInfo.ref⟩

/-- manager without reference time, system with reference time -/
def mixA : Csm ℕ TimeInfo Unit := (addCs 1 0 ⟨some 5⟩ true true (init 0 100 none)).state
/-- manager with reference time, system without -/
def mixB : Csm ℕ TimeInfo Unit := (addCs 2 1 ⟨none⟩ true true (init 1 101 (some 7))).state

/-- **C16, counterexample.** `merge` accepts a manager that has a reference time and contains a system
without one; the result has no reference time and mixes both kinds. -/
theorem C16_merge_counterexample : ∃ m o m' : Csm ℕ TimeInfo Unit, Reachable m ∧ Reachable o ∧
    ¬ m.MixedTimes ∧ ¬ o.MixedTimes ∧ merge o m = .ok () m' ∧ m'.MixedTimes := by
  refine ⟨mixA, mixB, _, .addCs _ _ _ _ _ (.init _ _ _), .addCs _ _ _ _ _ (.init _ _ _), ?_, ?_, rfl,
    rfl, 1, 0, ⟨some 5⟩, 2, 1, ⟨none⟩, .head _, .tail _ (.tail _ (.head _)), rfl, rfl, by decide, rfl⟩
  · have := (C16_no_mixture_partial (.init 0 100 none) (m := (init 0 100 none : Csm ℕ TimeInfo Unit))
      (by rintro ⟨_, a, b, s, _, _, _, h, _⟩; cases h)).1 1 0 ⟨some 5⟩ true true
    exact this
  · rintro ⟨h, _⟩; cases h

example : Reachable mixA ∧ ¬ mixA.MixedTimes ∧ mixA.lcsTimeDependent ≠ [] :=
  ⟨.addCs _ _ _ _ _ (.init _ _ _), (C16_no_mixture_partial (.init 0 100 none)
    (m := (init 0 100 none : Csm ℕ TimeInfo Unit))
    (by rintro ⟨_, a, b, s, _, _, _, h, _⟩; cases h)).1 1 0 ⟨some 5⟩ true true, by decide⟩

end Weldx.Csm
