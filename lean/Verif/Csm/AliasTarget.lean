import Verif.Csm.AliasRefine

/-!
# Data that is transformed when it is assigned, with objects (C19)

Source: `/repo/weldx/transformations/cs_manager.py` 577-630 (`assign_data` with a target system).
-/

set_option linter.unusedSectionVars false

namespace Weldx.Csm
variable {N S D L : Type} [DecidableEq N] [LcsLike S] [Group L]

/-- the reference system and the data of an assignment, 616-628 -/
def hPlace (ev : S → Except CsmError L) (act : L → D → D) (v : D) (ref : N) (target : Option N) (h : Heap N D) (m : HCsm N S) :
    Except CsmError (N × D) :=
  match target with
  | none => .ok (ref, v)
  | some t =>
    match (h.view m).checkExists t with
    | .error e => .error e
    | .ok () =>
      match (h.view m).transformData ev act v ref t with
      | .error e => .error e
      | .ok x => .ok (t, x)

/-- `assign_data(data, d, ref, target)`, `cs_manager.py` 612-630 -/
def hAssignTo (ev : S → Except CsmError L) (act : L → D → D) (v : D) (d ref : N) (target : Option N) : HCmd N S D Unit := fun (h, m) =>
  if d ∈ (h.view m).dataNames then .err .valueError (h, m)
  else match (h.view m).checkExists ref with
    | .error e => .err e (h, m)
    | .ok () => match hPlace ev act v ref target h m with
      | .error e => .err e (h, m)
      | .ok (cs, x) => match Dict.get? m.nodes cs with
        | none => .err .keyError (h, m)
        | some l => .ok () ({ h with dict := put h.dict l (Dict.set (h.dict l) d x) }, m)

/-- a data operation of a manager, with or without target systems -/
inductive TargetOp (ev : S → Except CsmError L) (act : L → D → D) (m : HCsm N S) : Heap N D → Heap N D → Prop
  | assign (h : Heap N D) (v : D) (d ref : N) (target : Option N) :
      TargetOp ev act m h (hAssignTo ev act v d ref target (h, m)).state.1
  | delete (h : Heap N D) (d : N) : TargetOp ev act m h (hDeleteData d (h, m)).state.1

/-- any number of such operations of two managers -/
inductive TargetOps (ev : S → Except CsmError L) (act : L → D → D) (m o : HCsm N S) : Heap N D → Heap N D → Prop
  | refl (h : Heap N D) : TargetOps ev act m o h h
  | left {h h' h'' : Heap N D} : TargetOps ev act m o h h' → TargetOp ev act m h' h'' → TargetOps ev act m o h h''
  | right {h h' h'' : Heap N D} : TargetOps ev act m o h h' → TargetOp ev act o h' h'' → TargetOps ev act m o h h''

section
variable (ev : S → Except CsmError L) (act : L → D → D)

/-- an assignment changes nothing or stores some data at some system -/
theorem hAssignTo_cases (h : Heap N D) (m : HCsm N S) (v : D) (d ref : N) (target : Option N) :
    (∃ e, hAssignTo ev act v d ref target (h, m) = .err e (h, m)) ∨
      ∃ x cs, hPlace ev act v ref target h m = .ok (cs, x) ∧ ref ∈ (h.view m).names ∧
        hAssignTo ev act v d ref target (h, m) = hAssign x d cs (h, m) := by
  by_cases hd : d ∈ (h.view m).dataNames
  · exact .inl ⟨.valueError, by simp only [hAssignTo, hd, if_true]⟩
  · cases hc : (h.view m).checkExists ref with
    | error e => exact .inl ⟨e, by simp only [hAssignTo, hd, if_false, hc]⟩
    | ok u =>
      have hr : ref ∈ (h.view m).names := by
        by_contra hr
        simp only [checkExists, has, hr, decide_false, Bool.false_eq_true, if_false] at hc
        cases hc
      cases hp : hPlace ev act v ref target h m with
      | error e => exact .inl ⟨e, by simp only [hAssignTo, hd, if_false, hc, hp]⟩
      | ok y =>
        obtain ⟨cs, x⟩ := y
        cases hg : Dict.get? m.nodes cs with
        | none => exact .inl ⟨.keyError, by simp only [hAssignTo, hd, if_false, hc, hp, hg]⟩
        | some l => exact .inr ⟨x, cs, rfl, hr, by simp only [hAssignTo, hAssign, hd, if_false, hc, hp, hg]⟩

theorem TargetOp.dataOp {ev : S → Except CsmError L} {act : L → D → D} {m : HCsm N S} {h h' : Heap N D} (op : TargetOp ev act m h h') :
    h' = h ∨ DataOp m h h' := by
  cases op with
  | delete d => exact .inr (.delete h d)
  | assign v d ref target =>
    rcases hAssignTo_cases ev act h m v d ref target with ⟨e, he⟩ | ⟨x, cs, -, -, he⟩
    · left; rw [he]; rfl
    · right; rw [he]; exact .assign h x d cs

theorem TargetOps.dataOps {ev : S → Except CsmError L} {act : L → D → D} {m o : HCsm N S} {h h' : Heap N D}
    (ops : TargetOps ev act m o h h') : DataOps m o h h' := by
  induction ops with
  | refl => exact .refl _
  | left _ op ih =>
    rcases op.dataOp with rfl | op
    · exact ih
    · exact .left ih op
  | right _ op ih =>
    rcases op.dataOp with rfl | op
    · exact ih
    · exact .right ih op

/-- **C19, negation in general, with target systems**: the data of both managers stay the same, also if data is transformed when it is
assigned. -/
theorem C19_shared_target {h h' h'' : Heap N D} {m m' o : HCsm N S} (hm : HOk h m) (ho : HOk h o)
    (hr : hMerge o (h, m) = .ok () (h', m')) (ops : TargetOps ev act m' o h' h'') {c n : N} (hc : OnlyCommon c m o) (hn : n ∈ o.names)
    (hnc : n ≠ c) : h''.dataAt m' n = h''.dataAt o n :=
  C19_shared hm ho hr ops.dataOps hc hn hnc

/-- **C19, what holds, with target systems**: data at the common system and at systems of only one manager stay apart. -/
theorem C19_apart_target {h h' : Heap N D} {m m' o : HCsm N S} (hm : HOk h m) (ho : HOk h o) (ha : Apart h m o)
    (hr : hMerge o (h, m) = .ok () (h', m')) {c : N} (hc : OnlyCommon c m o) :
    (∀ h'' n, TargetOps ev act o o h' h'' → n = c ∨ n ∉ o.names → h''.dataAt m' n = h'.dataAt m' n) ∧
      ∀ h'', TargetOps ev act m' m' h' h'' → h''.dataAt o c = h'.dataAt o c := by
  obtain ⟨h1, h2⟩ := C19_apart hm ho ha hr hc
  exact ⟨fun h'' n ops => h1 h'' n ops.dataOps, fun h'' ops => h2 h'' ops.dataOps⟩

/-- `assign_data` -/
theorem seen_assignTo {h : Heap N D} {m : HCsm N S} (hm : HOk h m) (v : D) (d ref : N) (target : Option N) :
    seen (hAssignTo ev act v d ref target (h, m)) = assignData ev act v d ref target (h.view m) := by
  simp only [hAssignTo, assignData, Py.get_bind, Py.ite_apply, Py.raise_apply]
  by_cases hd : d ∈ (h.view m).dataNames
  · simp [hd, seen]
  · simp only [hd, if_false]
    cases hc : (h.view m).checkExists ref with
    | error e => simp only [Py.lift_error_bind, seen]
    | ok u =>
      simp only [Py.lift_ok_bind]
      have store : ∀ (cs : N) (x : D),
          seen (match Dict.get? m.nodes cs with
            | none => Res.err .keyError (h, m)
            | some l => Res.ok () ({ h with dict := put h.dict l (Dict.set (h.dict l) d x) }, m)) =
          (match Dict.get? (h.view m).nodes cs with
            | none => Py.raise CsmError.keyError
            | some ds => Py.modify fun m : Csm N S D => { m with nodes := Dict.set m.nodes cs (Dict.set ds d x) }) (h.view m) := by
        intro cs x
        cases hg : Dict.get? m.nodes cs with
        | none =>
          have hv : Dict.get? (h.view m).nodes cs = none := by rw [view_get?, hg]; rfl
          simp only [hv, seen, Py.raise_apply]
        | some l =>
          have hv : Dict.get? (h.view m).nodes cs = some (h.dict l) := by rw [view_get?, hg]; rfl
          have hs := map_put h.dict hm.names hm.locs (Dict.mem_of_get? hg) (Dict.set (h.dict l) d x)
          simp only [hv, seen, Py.modify_apply]
          simp only [Heap.view, hs]
      cases target with
      | none =>
        simp only [hPlace, Py.pure_bind']
        exact store ref v
      | some t =>
        simp only [hPlace]
        cases ht : (h.view m).checkExists t with
        | error e => simp only [Py.lift_error_bind, seen]
        | ok u =>
          cases hx : (h.view m).transformData ev act v ref t with
          | error e => simp only [Py.lift_ok_bind, Py.lift_error_bind, seen]
          | ok x =>
            simp only [Py.lift_ok_bind, Py.pure_bind']
            exact store t x

/-- **A manager by itself, with target systems**: an assignment changes what is seen of its manager as in the model without objects. -/
theorem C19_alone_target {h : Heap N D} {m : HCsm N S} (hm : HOk h m) (v : D) (d ref : N) (target : Option N) :
    seen (hAssignTo ev act v d ref target (h, m)) = assignData ev act v d ref target (h.view m) :=
  seen_assignTo ev act hm v d ref target

/-- **C19, negation, with target systems**: assigning data in the merged-in manager so that it is transformed to a system other than the
common one stores the transformed data in the other manager, too. -/
theorem C19_assign_target {h h' : Heap N D} {m m' o : HCsm N S} (hm : HOk h m) (ho : HOk h o) (hr : hMerge o (h, m) = .ok () (h', m'))
    {c ref t d : N} {v x : D} (hc : OnlyCommon c m o) (hn : t ∈ o.names) (href : ref ∈ o.names) (hnc : t ≠ c)
    (hd : d ∉ (h'.view o).dataNames) (hx : (h'.view o).transformData ev act v ref t = .ok x) :
    ∃ h'', hAssignTo ev act v d ref (some t) (h', o) = .ok () (h'', o) ∧ (h''.view m').StoredAt t d x ∧
      ∀ w, ¬ (h'.view m').StoredAt t d w := by
  obtain ⟨h'', he, hs⟩ := C19_assign (v := x) hm ho hr hc hn hnc hd
  refine ⟨h'', ?_, hs⟩
  rw [← he]
  have h1 : (h'.view o).checkExists ref = .ok () := by simp [checkExists, has, view_names, href]
  have h2 : (h'.view o).checkExists t = .ok () := by simp [checkExists, has, view_names, hn]
  obtain ⟨l, hl⟩ := Dict.get?_isSome.2 hn
  simp only [hAssignTo, hAssign, hd, if_false, hPlace, h1, h2, hx, hl]

end

/-- `o.assign_data(7, "11", "1", "2")` with a system that moves data by 3 gives `m` the value 10 at the system `2` -/
example : ∃ h'', hAssignTo (fun _ : Unit => .ok (Multiplicative.ofAdd (3 : ℤ))) (fun l d => d + (Multiplicative.toAdd l).natAbs) 7 11 1 (some 2)
      (aliasMerged.1, aliasO) = .ok () (h'', aliasO) ∧ (h''.view aliasMerged.2).StoredAt 2 11 10 ∧
    ∀ w, ¬ (aliasMerged.1.view aliasMerged.2).StoredAt 2 11 w :=
  C19_assign_target _ _ aliasM_ok aliasO_ok alias_merge alias_common (by decide) (by decide) (by decide) (by decide) rfl

end Weldx.Csm
