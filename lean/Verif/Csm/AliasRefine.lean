import Verif.Csm.AliasProps

/-!
# A manager that shares nothing behaves as its content (C19)

Connection of the heap model with the model of a single manager: each command changes what can be seen of a manager as the command of
`Csm/Model.lean` changes the content.
-/

set_option linter.unusedSectionVars false

namespace Weldx.Csm
variable {N S D L : Type} [DecidableEq N] [LcsLike S]

/-- the result of a command with the content that can be seen -/
def seen {α : Type} : Res CsmError (Heap N D × HCsm N S) α → Res CsmError (Csm N S D) α
  | .ok a s => .ok a (s.1.view s.2)
  | .err e s => .err e (s.1.view s.2)

theorem map_put {A : Type} (f : Nat → A) {d : List (N × Nat)} (hn : (Dict.keys d).Nodup) (hl : (d.map Prod.snd).Nodup) {n : N} {l : Nat}
    (h : (n, l) ∈ d) (v : A) :
    d.map (fun x => (x.1, put f l v x.2)) = Dict.set (d.map fun x => (x.1, f x.2)) n v := by
  induction d with
  | nil => cases h
  | cons x d ih =>
    obtain ⟨k, j⟩ := x
    simp only [Dict.keys_cons, List.map_cons, List.nodup_cons] at hn hl
    rcases List.mem_cons.1 h with h | h
    · cases h
      have hr : d.map (fun x => (x.1, put f l v x.2)) = d.map fun x => (x.1, f x.2) :=
        List.map_congr_left fun x hx => by rw [put_ne _ _ fun e => hl.1 (List.mem_map.2 ⟨x, hx, e⟩)]
      simp [Dict.set, hr]
    · have hk : k ≠ n := fun e => hn.1 (e ▸ Dict.mem_keys_of_mem h)
      have hj : j ≠ l := fun e => hl.1 (e ▸ List.mem_map.2 ⟨(n, l), h, rfl⟩)
      simp [Dict.set, hk, put_ne f v hj, ih hn.2 hl.2 h]

/-- `assign_data` -/
theorem seen_assign [Group L] (ev : S → Except CsmError L) (act : L → D → D) {h : Heap N D} {m : HCsm N S} (hm : HOk h m) (v : D) (d ref : N) :
    seen (hAssign v d ref (h, m)) = assignData ev act v d ref none (h.view m) := by
  simp only [hAssign, assignData, Py.get_bind, Py.ite_apply, Py.raise_apply]
  by_cases hd : d ∈ (h.view m).dataNames
  · simp [hd, seen]
  · simp only [hd, if_false]
    cases hg : Dict.get? m.nodes ref with
    | none =>
      have : ref ∉ (h.view m).names := by rw [view_names]; exact Dict.get?_eq_none.1 hg
      simp only [checkExists, has, this, decide_false, Bool.false_eq_true, if_false, Py.lift_error_bind, seen]
    | some l =>
      have hr : ref ∈ (h.view m).names := by rw [view_names]; exact Dict.get?_isSome.1 ⟨l, hg⟩
      have hv : Dict.get? (h.view m).nodes ref = some (h.dict l) := by rw [view_get?, hg]; rfl
      have hs := map_put h.dict hm.names hm.locs (Dict.mem_of_get? hg) (Dict.set (h.dict l) d v)
      simp only [checkExists, has, hr, decide_true, if_true, Py.lift_ok_bind, Py.pure_bind', hv, Py.modify_apply, seen]
      simp only [Heap.view, hs]

theorem popData_map (f : Nat → List (N × D)) {ns : List (N × Nat)} (hn : (Dict.keys ns).Nodup) (hl : (ns.map Prod.snd).Nodup) (d : N) :
    popData d (ns.map fun x => (x.1, f x.2)) = (ns.find? fun x => d ∈ Dict.keys (f x.2)).map fun y =>
      ns.map fun x => (x.1, put f y.2 (Dict.erase (f y.2) d) x.2) := by
  induction ns with
  | nil => rfl
  | cons x ns ih =>
    obtain ⟨k, j⟩ := x
    simp only [Dict.keys_cons, List.map_cons, List.nodup_cons] at hn hl
    by_cases hd : d ∈ Dict.keys (f j)
    · have hr : ns.map (fun x => (x.1, put f j (Dict.erase (f j) d) x.2)) = ns.map fun x => (x.1, f x.2) :=
        List.map_congr_left fun x hx => by rw [put_ne _ _ fun e => hl.1 (List.mem_map.2 ⟨x, hx, e⟩)]
      simp [popData, hd, hr]
    · simp only [List.map_cons, popData, hd, if_false, ih hn.2 hl.2]
      rw [List.find?_cons_of_neg (by simpa using hd), Option.map_map]
      cases hf : ns.find? fun x => d ∈ Dict.keys (f x.2) with
      | none => rfl
      | some y =>
        have hj : j ≠ y.2 := fun e => hl.1 (e ▸ List.mem_map.2 ⟨y, List.mem_of_find?_eq_some hf, rfl⟩)
        simp [put_ne f _ hj]

/-- `delete_data` -/
theorem seen_delete {h : Heap N D} {m : HCsm N S} (hm : HOk h m) (d : N) :
    seen (hDeleteData d (h, m)) = deleteData d (h.view m) := by
  have hs : ∀ f : Nat → List (N × D), (Heap.view { h.discard (h.list m.subs) d with dict := f } m) =
      { h.view m with nodes := m.nodes.map (fun x => (x.1, f x.2)), subs := (h.view m).subs.map (SubInfo.discard d) } := by
    intro f
    have : (h.list m.subs).map (fun i => (HInfo.value (if i ∈ h.list m.subs then { h.info i with data := (h.info i).data.filter (· ≠ d) }
        else h.info i))) = (h.list m.subs).map fun i => SubInfo.discard d (h.info i).value :=
      List.map_congr_left fun i hi => by rw [if_pos hi]; rfl
    simp only [Heap.view, Heap.discard, this, List.map_map, Function.comp_def]
  simp only [hDeleteData, deleteData, Py.modify_bind, Py.get_bind]
  have hp := popData_map h.dict hm.names hm.locs d
  have hn : (h.view m).nodes = m.nodes.map fun x => (x.1, h.dict x.2) := rfl
  simp only [hn, hp]
  have hdd : (h.discard (h.list m.subs) d).dict = h.dict := rfl
  simp only [hdd]
  cases hf : m.nodes.find? fun x => d ∈ Dict.keys (h.dict x.2) with
  | none =>
    simp only [Option.map_none, Py.raise_apply, seen]
    exact congrArg _ (hs h.dict)
  | some y =>
    simp only [Option.map_some, Py.modify_apply, seen]
    exact congrArg _ (hs _)

/-- `add_cs` -/
theorem seen_addCs {h : Heap N D} {m : HCsm N S} (hm : HOk h m) (I : Inv (h.view m)) (n ref : N) (s : S) (dir lsc : Bool) :
    seen (hAddCs n ref s dir lsc (h, m)) = addCs n ref s dir lsc (h.view m) := by
  rcases addCs_cases I n ref s dir lsc with ⟨e, -⟩ | ⟨e, -⟩ | ⟨-, ha, e⟩ | ⟨-, hn, -, e⟩
  · simp only [hAddCs, e, seen]; rfl
  · simp only [hAddCs, e, seen]; rfl
  · have hn : n ∈ m.names := by have := I.tree.mem _ _ ha; rwa [view_names] at this
    simp only [hAddCs, e, hn, if_true, seen]; rfl
  · rw [view_names] at hn
    have hr : m.nodes.map (fun x => (x.1, put h.dict h.next [] x.2)) = m.nodes.map fun x => (x.1, h.dict x.2) :=
      List.map_congr_left fun x hx => by rw [put_ne _ _ (Nat.ne_of_lt (hm.used x hx))]
    simp only [hAddCs, e, hn, if_false, seen]
    simp only [Heap.view, List.map_append, List.map_cons, List.map_nil, put_self, hr]

/-- `delete_cs` -/
theorem seen_deleteCs {h : Heap N D} {m : HCsm N S} (I : Inv (h.view m)) (n : N) (b : Bool) :
    seen (hDeleteCs n b (h, m)) = deleteCs n b (h.view m) := by
  rcases deleteCs_cases I n b with ⟨hn, e⟩ | ⟨-, e⟩ | ⟨-, -, -, -, e⟩ | ⟨hn, -, -, del, rem, hdel, hrem, e⟩
  · rw [view_names] at hn
    simp only [hDeleteCs, e, hn, not_false_eq_true, if_true, seen]
  · simp only [hDeleteCs, e, seen]
  · simp only [hDeleteCs, e, seen]
  · rw [view_names] at hn
    simp only [hDeleteCs, e, hn, not_true_eq_false, if_false, seen]
    refine congrArg _ ?_
    have h1 : (m.nodes.filter fun x => x.1 ∈ ({ (h.view m).without del with
        subs := (h.view m).subs.filter (fun s => s.name ∉ rem) } : Csm N S D).names).map (fun x => (x.1, h.dict x.2)) =
        ((h.view m).without del).nodes := by
      have hk : ∀ x ∈ m.nodes, decide (x.1 ∈ ({ (h.view m).without del with
          subs := (h.view m).subs.filter (fun s => s.name ∉ rem) } : Csm N S D).names) = decide (x.1 ∉ del) := by
        intro x hx
        refine decide_eq_decide.2 ?_
        simp only [names, without, Dict.keys, Heap.view, List.mem_map, List.mem_filter, decide_eq_true_eq]
        constructor
        · rintro ⟨a, ⟨-, ha⟩, hax⟩; rwa [hax] at ha
        · intro h1; exact ⟨(x.1, h.dict x.2), ⟨⟨x, hx, rfl⟩, h1⟩, rfl⟩
      rw [List.filter_congr hk]
      simp only [without, Heap.view, List.filter_map, Function.comp_def]
    have h2 : ((h.list m.subs).filter fun i => (h.info i).name ∈ ((h.view m).subs.filter (fun s => s.name ∉ rem)).map SubInfo.name).map
        (fun i => (h.info i).value) = (h.view m).subs.filter fun s => s.name ∉ rem := by
      have hk : ∀ i ∈ h.list m.subs, decide ((h.info i).name ∈ ((h.view m).subs.filter (fun s => s.name ∉ rem)).map SubInfo.name) =
          decide ((h.info i).value.name ∉ rem) := by
        intro i hi
        refine decide_eq_decide.2 ?_
        simp only [Heap.view, List.mem_map, List.mem_filter, decide_eq_true_eq]
        constructor
        · rintro ⟨a, ⟨-, ha⟩, hax⟩; rw [hax] at ha; exact ha
        · intro h1; exact ⟨(h.info i).value, ⟨⟨i, hi, rfl⟩, h1⟩, rfl⟩
      rw [List.filter_congr hk]
      simp only [Heap.view, List.filter_map, Function.comp_def]
    have h3 : ∀ a b : Csm N S D, a.name = b.name → a.root = b.root → a.refTime = b.refTime → a.nodes = b.nodes → a.edges = b.edges →
        a.subs = b.subs → a = b := by
      rintro ⟨⟩ ⟨⟩ rfl rfl rfl rfl rfl rfl; rfl
    refine h3 _ _ rfl rfl rfl h1 rfl ?_
    simp only [Heap.view, put_self]
    exact h2

/-- **A manager by itself**: each command changes what is seen of its manager exactly as it changes the content in the model without
objects; the difference is only in what other managers see. -/
theorem C19_alone [Group L] (ev : S → Except CsmError L) (act : L → D → D) {h : Heap N D} {m : HCsm N S} (hm : HOk h m)
    (I : Inv (h.view m)) :
    (∀ v d ref, seen (hAssign v d ref (h, m)) = assignData ev act v d ref none (h.view m)) ∧
      (∀ d, seen (hDeleteData d (h, m)) = deleteData d (h.view m)) ∧
      (∀ n ref s dir lsc, seen (hAddCs n ref s dir lsc (h, m)) = addCs n ref s dir lsc (h.view m)) ∧
      ∀ n b, seen (hDeleteCs n b (h, m)) = deleteCs n b (h.view m) :=
  ⟨seen_assign ev act hm, seen_delete hm, seen_addCs hm I, seen_deleteCs I⟩

/-- deleting data in a manager with a subsystem also changes its record -/
example : seen (hDeleteData 10 aliasMerged) = deleteData 10 (aliasMerged.1.view aliasMerged.2) :=
  seen_delete (aliasM_ok.merge aliasO_ok alias_apart alias_merge).1 10

end Weldx.Csm
