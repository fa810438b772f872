import Verif.Csm.Invariant

/-!
# Every operation keeps the manager well-formed: data and subsystems
-/

set_option linter.unusedSectionVars false
set_option linter.unusedSimpArgs false

namespace Weldx.Csm
variable {N S D L : Type} [DecidableEq N] [LcsLike S]

/-- changing only attached data and subsystem records -/
theorem Inv.withNodes {m : Csm N S D} (I : Inv m) {ns : List (N × List (N × D))}
    {subs : List (SubInfo N)} (hk : Dict.keys ns = m.names)
    (h1 : ∀ n ds, Dict.get? ns n = some ds → (Dict.keys ds).Nodup)
    (h2 : ∀ n n' ds ds' d, Dict.get? ns n = some ds → Dict.get? ns n' = some ds' →
      d ∈ Dict.keys ds → d ∈ Dict.keys ds' → n = n')
    (hs : ∀ s ∈ subs, SubOK m.Adj (fun x => x ∈ m.names) m.root s) :
    Inv { m with nodes := ns, subs := subs } where
  nodesNodup := by show (Dict.keys ns).Nodup; rw [hk]; exact I.nodesNodup
  edgesNodup := I.edgesNodup
  root_mem := by show m.root ∈ Dict.keys ns; rw [hk]; exact I.root_mem
  tree := I.tree.congr (fun x => by show _ ↔ x ∈ Dict.keys ns; rw [hk]) (fun _ _ => Iff.rfl)
  paired := I.paired
  dataNodup := (dataNodup_iff (m := { m with nodes := ns, subs := subs })
    (by show (Dict.keys ns).Nodup; rw [hk]; exact I.nodesNodup)).2 ⟨h1, h2⟩
  subs_ok := fun s h => (hs s h).transfer
    (fun x hx => by show x ∈ Dict.keys ns; rw [hk]; exact (hs s h).subset' x hx) fun _ _ _ _ h => h

theorem Inv.dataProps {m : Csm N S D} (I : Inv m) :
    (∀ n ds, Dict.get? m.nodes n = some ds → (Dict.keys ds).Nodup) ∧
    (∀ n n' ds ds' d, Dict.get? m.nodes n = some ds → Dict.get? m.nodes n' = some ds' →
      d ∈ Dict.keys ds → d ∈ Dict.keys ds' → n = n') := (dataNodup_iff I.nodesNodup).1 I.dataNodup

/-- replacing the data of one system by part of it -/
theorem Inv.setSub {m : Csm N S D} (I : Inv m) {cs : N} {ds ds' : List (N × D)}
    (hg : Dict.get? m.nodes cs = some ds) (hsub : ds'.Sublist ds) {subs : List (SubInfo N)}
    (hs : ∀ s ∈ subs, SubOK m.Adj (fun x => x ∈ m.names) m.root s) :
    Inv { m with nodes := Dict.set m.nodes cs ds', subs := subs } := by
  obtain ⟨h1, h2⟩ := I.dataProps
  have hk : (Dict.keys ds').Sublist (Dict.keys ds) := hsub.map _
  refine I.withNodes (Dict.keys_set_of_mem (Dict.get?_isSome.1 ⟨_, hg⟩)) ?_ ?_ hs
  · intro n x hx
    rw [Dict.get?_set] at hx
    split at hx
    · cases hx; exact (h1 cs ds hg).sublist hk
    · exact h1 n x hx
  · intro n n' x x' d hx hx' hd hd'
    rw [Dict.get?_set] at hx hx'
    split at hx <;> split at hx'
    · simp_all
    · cases hx; rename_i e _; subst e; exact h2 _ n' ds x' d hg hx' (hk.subset hd) hd'
    · cases hx'; rename_i e; subst e; exact h2 n _ x ds d hx hg hd (hk.subset hd')
    · exact h2 n n' x x' d hx hx' hd hd'

/-! ### data -/

/-- What `assign_data` can do. -/
theorem assignData_cases [Group L] (ev : S → Except CsmError L) (act : L → D → D) (data : D)
    (d ref : N) (target : Option N) (m : Csm N S D) :
    (∃ e, assignData ev act data d ref target m = .err e m) ∨
    (∃ cs data' ds, d ∉ m.dataNames ∧ cs = target.getD ref ∧ Dict.get? m.nodes cs = some ds ∧
      ((target = none ∧ data' = data) ∨
        ∃ t, target = some t ∧ m.transformData ev act data ref t = .ok data') ∧
      assignData ev act data d ref target m =
        .ok () { m with nodes := Dict.set m.nodes cs (Dict.set ds d data') }) := by
  simp only [assignData, Py.get_bind, Py.ite_apply, Py.raise_apply]
  by_cases hd : d ∈ m.dataNames
  · left; rw [if_pos hd]; exact ⟨_, rfl⟩
  rw [if_neg hd]
  by_cases hr : ref ∈ m.names
  swap
  · left; rw [checkExists_err hr, Py.lift_error_bind]; exact ⟨_, rfl⟩
  rw [checkExists_ok hr, Py.lift_ok_bind]
  cases target with
  | none =>
    obtain ⟨ds, hds⟩ := Dict.get?_isSome.2 hr
    right
    refine ⟨ref, data, ds, hd, rfl, hds, .inl ⟨rfl, rfl⟩, ?_⟩
    simp [hds]
  | some t =>
    by_cases ht : t ∈ m.names
    swap
    · left; simp only [checkExists_err ht, Py.lift_error_bind]; exact ⟨_, rfl⟩
    simp only [checkExists_ok ht, Py.lift_ok_bind]
    cases htr : m.transformData ev act data ref t with
    | error e => left; exact ⟨e, rfl⟩
    | ok x =>
      obtain ⟨ds, hds⟩ := Dict.get?_isSome.2 ht
      right
      refine ⟨t, x, ds, hd, rfl, hds, .inr ⟨t, rfl, htr⟩, ?_⟩
      simp [hds]

theorem Inv.assignData [Group L] (ev : S → Except CsmError L) (act : L → D → D) (data : D)
    (d ref : N) (target : Option N) {m : Csm N S D} (I : Inv m) :
    Inv (Csm.assignData ev act data d ref target m).state := by
  rcases assignData_cases ev act data d ref target m with ⟨e, h⟩ | ⟨cs, data', ds, hd, _, hds, _, h⟩
  · rw [h, Res.state_err]; exact I
  · rw [h, Res.state_ok]
    obtain ⟨h1, h2⟩ := I.dataProps
    have hnot : ∀ n x, Dict.get? m.nodes n = some x → d ∉ Dict.keys x := fun n x hx hdx =>
      hd ((mem_dataNames I.nodesNodup).2 ⟨n, x, hx, hdx⟩)
    refine I.withNodes (Dict.keys_set_of_mem (Dict.get?_isSome.1 ⟨_, hds⟩)) ?_ ?_ I.subs_ok
    · intro n x hx
      rw [Dict.get?_set] at hx
      split at hx
      · cases hx; exact Dict.nodup_keys_set (h1 cs ds hds)
      · exact h1 n x hx
    · intro n n' x x' k hx hx' hk hk'
      rw [Dict.get?_set] at hx hx'
      split at hx <;> split at hx'
      · simp_all
      · cases hx; rename_i e _; subst e
        rcases Dict.mem_keys_set.1 hk with hk | rfl
        · exact h2 _ n' ds x' k hds hx' hk hk'
        · exact absurd hk' (hnot n' x' hx')
      · cases hx'; rename_i e; subst e
        rcases Dict.mem_keys_set.1 hk' with hk' | rfl
        · exact h2 n _ x ds k hx hds hk hk'
        · exact absurd hk (hnot n x hx)
      · exact h2 n n' x x' k hx hx' hk hk'

theorem popData_none {d : N} : ∀ {ns : List (N × List (N × D))}, popData d ns = none →
    ∀ e ∈ ns, d ∉ Dict.keys e.2 := by
  intro ns
  induction ns with
  | nil => simp
  | cons e t ih =>
    obtain ⟨n, ds⟩ := e
    intro h
    simp only [popData] at h
    split at h
    · cases h
    · rename_i hd
      have ht : popData d t = none := by simpa using h
      intro e he
      rcases List.mem_cons.1 he with rfl | he
      · exact hd
      · exact ih ht e he

theorem popData_some {d : N} : ∀ {ns r : List (N × List (N × D))}, (Dict.keys ns).Nodup →
    popData d ns = some r →
    ∃ cs ds, Dict.get? ns cs = some ds ∧ d ∈ Dict.keys ds ∧ r = Dict.set ns cs (Dict.erase ds d) := by
  intro ns
  induction ns with
  | nil => intro r _ h; simp [popData] at h
  | cons e t ih =>
    obtain ⟨n, ds⟩ := e
    intro r hn h
    simp only [popData] at h
    split at h
    · rename_i hd
      cases h
      exact ⟨n, ds, by simp [Dict.get?], hd, by simp [Dict.set]⟩
    · rename_i hd
      simp only [Dict.keys_cons, List.nodup_cons] at hn
      cases ht : popData d t with
      | none => rw [ht] at h; cases h
      | some r' =>
        rw [ht] at h; cases h
        obtain ⟨cs, ds', h1, h2, rfl⟩ := ih hn.2 ht
        have hne : n ≠ cs := fun e => hn.1 (e ▸ Dict.get?_isSome.1 ⟨_, h1⟩)
        exact ⟨cs, ds', by simp [Dict.get?, hne, h1], h2, by simp [Dict.set, hne]⟩

/-- What `delete_data` can do. -/
theorem deleteData_cases (d : N) {m : Csm N S D} (I : Inv m) :
    (d ∉ m.dataNames ∧ deleteData d m =
      .err .valueError { m with subs := m.subs.map (SubInfo.discard d) }) ∨
    (∃ cs ds, Dict.get? m.nodes cs = some ds ∧ d ∈ Dict.keys ds ∧ deleteData d m = .ok ()
      { m with nodes := Dict.set m.nodes cs (Dict.erase ds d),
               subs := m.subs.map (SubInfo.discard d) }) := by
  simp only [deleteData, Py.modify_bind, Py.get_bind]
  cases h : popData d m.nodes with
  | none =>
    left
    refine ⟨fun hd => ?_, rfl⟩
    obtain ⟨n, ds, h1, h2⟩ := (mem_dataNames I.nodesNodup).1 hd
    exact popData_none h _ (Dict.mem_of_get? h1) h2
  | some r =>
    right
    obtain ⟨cs, ds, h1, h2, rfl⟩ := popData_some I.nodesNodup h
    exact ⟨cs, ds, h1, h2, rfl⟩

theorem Inv.withSubs {m : Csm N S D} (I : Inv m) {subs : List (SubInfo N)}
    (hs : ∀ s ∈ subs, SubOK m.Adj (fun x => x ∈ m.names) m.root s) : Inv { m with subs := subs } :=
  I.withNodes rfl I.dataProps.1 I.dataProps.2 hs

theorem Inv.deleteData (d : N) {m : Csm N S D} (I : Inv m) : Inv (Csm.deleteData d m).state := by
  have hs : ∀ s ∈ m.subs.map (SubInfo.discard d),
      SubOK m.Adj (fun x => x ∈ m.names) m.root s := by
    intro s hs
    obtain ⟨s', hs', rfl⟩ := List.mem_map.1 hs
    exact (I.subs_ok s' hs').discard
  rcases deleteData_cases d I with ⟨_, h⟩ | ⟨cs, ds, h1, _, h⟩
  · rw [h, Res.state_err]; exact I.withSubs hs
  · rw [h, Res.state_ok]; exact I.setSub h1 List.filter_sublist hs

/-! ### merge -/

/-- What `merge` can do. -/
theorem merge_cases (m o : Csm N S D) :
    (∃ e, merge o m = .err e m) ∨
    (∃ c dm dn, m.mergeRejected o = false ∧ c ∈ m.names ∧ c ∈ o.names ∧
      (∀ x, x ∈ m.names → x ∈ o.names → x = c) ∧ (∀ d ∈ o.dataNames, d ∉ m.dataNames) ∧
      Dict.get? m.nodes c = some dm ∧ Dict.get? o.nodes c = some dn ∧
      merge o m = .ok ()
        { m with
          nodes := Dict.set (Dict.update m.nodes o.nodes) c (Dict.update dm dn)
          edges := Dict.update m.edges o.edges
          subs := m.subs ++ [.mk o.name o.root c o.refTime o.names o.dataNames o.subs] }) := by
  simp only [merge, Py.get_bind, Py.ite_apply, Py.raise_apply]
  by_cases hrej : m.mergeRejected o = true
  · left; rw [if_pos hrej]; exact ⟨_, rfl⟩
  rw [if_neg hrej]
  generalize hf : m.names.filter (fun n => n ∈ o.names) = f
  match f, hf with
  | [], _ => exact .inl ⟨_, rfl⟩
  | _ :: _ :: _, _ => exact .inl ⟨_, rfl⟩
  | [c], hc =>
    simp only [Py.ite_apply]
    by_cases hd : o.dataNames.any (fun d => decide (d ∈ m.dataNames)) = true
    · left; rw [if_pos hd]; exact ⟨_, rfl⟩
    rw [if_neg hd]
    have hcm : ∀ x, (x ∈ m.names ∧ x ∈ o.names) ↔ x = c := by
      intro x
      have : x ∈ m.names.filter (fun n => n ∈ o.names) ↔ x ∈ [c] := by rw [hc]
      simpa using this
    obtain ⟨h1, h2⟩ := (hcm c).2 rfl
    obtain ⟨dm, hdm⟩ := Dict.get?_isSome.2 h1
    obtain ⟨dn, hdn⟩ := Dict.get?_isSome.2 h2
    right
    refine ⟨c, dm, dn, by simpa using hrej, h1, h2, fun x a b => (hcm x).1 ⟨a, b⟩, ?_, hdm, hdn, ?_⟩
    · intro d hdo hdm'
      apply hd; simp only [List.any_eq_true, decide_eq_true_eq]; exact ⟨d, hdo, hdm'⟩
    · simp [hdm, hdn]

theorem mem_update {K V : Type} [DecidableEq K] {d e : List (K × V)} (hd : (Dict.keys d).Nodup)
    (he : (Dict.keys e).Nodup) {k : K} {v : V} : (k, v) ∈ Dict.update d e ↔
      (k, v) ∈ e ∨ (k ∉ Dict.keys e ∧ (k, v) ∈ d) := by
  rw [← Dict.get?_iff_mem (Dict.nodup_keys_update hd), Dict.get?_update he, ← Dict.get?_iff_mem he,
    ← Dict.get?_iff_mem hd, ← Dict.get?_eq_none]
  cases Dict.get? e k <;> simp

theorem Inv.merge {m o : Csm N S D} (I : Inv m) (J : Inv o) : Inv (Csm.merge o m).state := by
  rcases merge_cases m o with ⟨e, h⟩ | ⟨c, dm, dn, _, hcm, hco, hint, hdis, hdm, hdn, h⟩
  · rw [h, Res.state_err]; exact I
  rw [h, Res.state_ok]
  obtain ⟨hm1, hm2⟩ := I.dataProps
  obtain ⟨ho1, ho2⟩ := J.dataProps
  have hdmo : ∀ d n ds n' ds', Dict.get? m.nodes n = some ds → Dict.get? o.nodes n' = some ds' →
      d ∈ Dict.keys ds → d ∈ Dict.keys ds' → False := fun d n ds n' ds' h1 h2 h3 h4 =>
    hdis d ((mem_dataNames J.nodesNodup).2 ⟨n', ds', h2, h4⟩)
      ((mem_dataNames I.nodesNodup).2 ⟨n, ds, h1, h3⟩)
  have hV : ∀ x, (x ∈ m.names ∨ x ∈ o.names) ↔
      x ∈ Dict.keys (Dict.set (Dict.update m.nodes o.nodes) c (Dict.update dm dn)) := by
    intro x
    rw [Dict.mem_keys_set, Dict.mem_keys_update]
    constructor
    · exact .inl
    · rintro (h | rfl)
      · exact h
      · exact .inl hcm
  have hA : ∀ x y, (m.Adj x y ∨ o.Adj x y) ↔ (x, y) ∈ Dict.keys (Dict.update m.edges o.edges) :=
    fun x y => Dict.mem_keys_update.symm
  have hnn : (Dict.keys (Dict.set (Dict.update m.nodes o.nodes) c (Dict.update dm dn))).Nodup :=
    Dict.nodup_keys_set (Dict.nodup_keys_update I.nodesNodup)
  -- data of a system after the merge
  have hget : ∀ n ds, Dict.get? (Dict.set (Dict.update m.nodes o.nodes) c (Dict.update dm dn)) n = some ds →
      (Dict.keys ds).Nodup ∧ ∀ d ∈ Dict.keys ds,
        (∃ ds', Dict.get? m.nodes n = some ds' ∧ d ∈ Dict.keys ds') ∨
        (∃ ds', Dict.get? o.nodes n = some ds' ∧ d ∈ Dict.keys ds') := by
    intro n ds hds
    rw [Dict.get?_set] at hds
    split at hds
    · cases hds; rename_i e; subst e
      refine ⟨Dict.nodup_keys_update (hm1 _ _ hdm), fun d hd => ?_⟩
      rcases Dict.mem_keys_update.1 hd with hd | hd
      · exact .inl ⟨dm, hdm, hd⟩
      · exact .inr ⟨dn, hdn, hd⟩
    · rw [Dict.get?_update J.nodesNodup] at hds
      cases ho : Dict.get? o.nodes n with
      | none =>
        rw [ho] at hds; simp at hds
        exact ⟨hm1 _ _ hds, fun d hd => .inl ⟨ds, hds, hd⟩⟩
      | some x =>
        rw [ho] at hds; simp at hds; subst hds
        exact ⟨ho1 _ _ ho, fun d hd => .inr ⟨x, rfl, hd⟩⟩
  have hsubs1 : ∀ s, SubOK m.Adj (fun x => x ∈ m.names) m.root s → SubOK
      (fun x y => (x, y) ∈ Dict.keys (Dict.update m.edges o.edges))
      (fun x => x ∈ Dict.keys (Dict.set (Dict.update m.nodes o.nodes) c (Dict.update dm dn)))
      m.root s := fun s hs => hs.transfer
    (fun x hx => (hV x).1 (.inl (hs.subset' x hx))) fun x _ y _ h => (hA x y).1 (.inl h)
  exact {
    nodesNodup := hnn
    edgesNodup := Dict.nodup_keys_update I.edgesNodup
    root_mem := (hV _).1 (.inl I.root_mem)
    tree := (I.tree.glue J.tree hcm hco hint).congr hV hA
    paired := by
      intro a b e he
      simp only [mem_update I.edgesNodup J.edgesNodup] at he
      rcases he with he | ⟨hne, he⟩
      · obtain ⟨e', he', hp⟩ := J.paired _ _ _ he
        exact ⟨e', (mem_update I.edgesNodup J.edgesNodup).2 (.inl he'), hp⟩
      · obtain ⟨e', he', hp⟩ := I.paired _ _ _ he
        exact ⟨e', (mem_update I.edgesNodup J.edgesNodup).2 (.inr
          ⟨fun h => hne (J.tree.symm _ _ h), he'⟩), hp⟩
    dataNodup := by
      refine (dataNodup_iff (m := { m with
          nodes := Dict.set (Dict.update m.nodes o.nodes) c (Dict.update dm dn)
          edges := Dict.update m.edges o.edges
          subs := m.subs ++ [.mk o.name o.root c o.refTime o.names o.dataNames o.subs] })
        hnn).2 ⟨fun n ds h => (hget n ds h).1, ?_⟩
      intro n n' ds ds' d h1 h2 hd hd'
      rcases (hget n ds h1).2 d hd with ⟨x, hx, hdx⟩ | ⟨x, hx, hdx⟩ <;>
      rcases (hget n' ds' h2).2 d hd' with ⟨y, hy, hdy⟩ | ⟨y, hy, hdy⟩
      · exact hm2 n n' x y d hx hy hdx hdy
      · exact (hdmo d n x n' y hx hy hdx hdy).elim
      · exact (hdmo d n' y n x hy hx hdy hdx).elim
      · exact ho2 n n' x y d hx hy hdx hdy
    subs_ok := by
      intro s hs
      rcases List.mem_append.1 hs with hs | hs
      · exact hsubs1 s (I.subs_ok s hs)
      · simp only [List.mem_singleton] at hs
        subst hs
        refine .mk J.nodesNodup (fun x hx => (hV x).1 (.inr hx)) J.root_mem hco
          (fun h => hint _ I.root_mem h) (fun x hx => ?_) (fun s' hs' => ?_)
        · obtain ⟨p, hp⟩ := J.tree.exists_path x o.root hx J.root_mem
          exact ⟨p, hp.1.mono fun x _ y _ h => (hA x y).1 (.inr h), walk_mem J hp.1 hx⟩
        · exact (J.subs_ok s' hs').transfer (J.subs_ok s' hs').subset'
            fun x _ y _ h => (hA x y).1 (.inr h) }

/-! ### subsystems -/

/-- the part of the manager that belongs to a subsystem record -/
def part (m : Csm N S D) (sub : SubInfo N) (ds : List (N × D)) : Csm N S D :=
  { name := sub.name, root := sub.root, refTime := sub.timeRef,
    nodes := Dict.set (m.nodes.filter (fun e => e.1 ∈ sub.members)) sub.common
      (ds.filter (fun e => e.1 ∈ sub.data)),
    edges := m.edges.filter (fun e => e.1.1 ∈ sub.members ∧ e.1.2 ∈ sub.members),
    subs := sub.subs }

theorem extract_eq {m : Csm N S D} {sub : SubInfo N}
    (hok : SubOK m.Adj (fun x => x ∈ m.names) m.root sub) :
    ∃ ds, Dict.get? m.nodes sub.common = some ds ∧ m.extract sub = .ok (m.part sub ds) := by
  cases hok with
  | mk nd sb rm cm rc cn nested =>
    obtain ⟨ds, hds⟩ := Dict.get?_isSome.2 (sb _ cm)
    refine ⟨ds, hds, ?_⟩
    have : Dict.get? (m.nodes.filter (fun e => e.1 ∈ sub.members)) sub.common = some ds := by
      rw [Dict.get?_filter (p := fun x => x ∈ sub.members)]; simp [cm, hds]
    have hf : ds.filter (fun e => e.1 ∈ (Dict.keys ds).filter (fun d => d ∈ sub.data)) =
        ds.filter (fun e => e.1 ∈ sub.data) := by
      refine List.filter_congr fun x hx => ?_
      have : x.1 ∈ Dict.keys ds := List.mem_map.2 ⟨x, hx, rfl⟩
      simp [this]
    simp only [extract, this, subCommonData, hds]
    show Except.ok _ = _
    rw [hf]; rfl

theorem Inv.part {m : Csm N S D} (I : Inv m) {sub : SubInfo N} (hs : sub ∈ m.subs)
    {ds : List (N × D)} (hds : Dict.get? m.nodes sub.common = some ds) :
    Inv (m.part sub ds) := by
  have hok := I.subs_ok sub hs
  cases hok with
  | mk nd sb rm cm rc cn nested =>
  have hkeys : Dict.keys (m.nodes.filter (fun e => e.1 ∈ sub.members)) =
      m.names.filter (fun x => x ∈ sub.members) := Dict.keys_filter (p := fun x => x ∈ sub.members)
  have hcmem : sub.common ∈ Dict.keys (m.nodes.filter (fun e => e.1 ∈ sub.members)) := by
    rw [hkeys]; simp [sb _ cm, cm]
  have hnames : (m.part sub ds).names = m.names.filter (fun x => x ∈ sub.members) := by
    show Dict.keys _ = _
    rw [← hkeys]
    exact Dict.keys_set_of_mem hcmem
  have hV : ∀ x, x ∈ sub.members ↔ x ∈ (m.part sub ds).names := by
    intro x; rw [hnames]; simp; exact fun h => sb x h
  have hA : ∀ x y, (x ∈ sub.members ∧ y ∈ sub.members ∧ m.Adj x y) ↔ (m.part sub ds).Adj x y := by
    intro x y
    have : Dict.keys (m.part sub ds).edges = (Dict.keys m.edges).filter
        (fun k => k.1 ∈ sub.members ∧ k.2 ∈ sub.members) :=
      Dict.keys_filter (p := fun k : N × N => k.1 ∈ sub.members ∧ k.2 ∈ sub.members)
    show _ ↔ (x, y) ∈ Dict.keys (m.part sub ds).edges
    rw [this]; simp [Adj]; tauto
  have hnn : (m.part sub ds).names.Nodup := by rw [hnames]; exact I.nodesNodup.filter _
  obtain ⟨hm1, hm2⟩ := I.dataProps
  have hget : ∀ n x, Dict.get? (m.part sub ds).nodes n = some x →
      ∃ y, Dict.get? m.nodes n = some y ∧ x.Sublist y := by
    intro n x hx
    have hx : Dict.get? (Dict.set (m.nodes.filter (fun e => e.1 ∈ sub.members)) sub.common
      (ds.filter (fun e => e.1 ∈ sub.data))) n = some x := hx
    rw [Dict.get?_set] at hx
    split at hx
    · cases hx; rename_i e; subst e; exact ⟨ds, hds, List.filter_sublist⟩
    · exact ⟨x, (get?_filter_sub (P := fun x => x ∈ sub.members) hx).2, List.Sublist.refl _⟩
  exact {
    nodesNodup := hnn
    edgesNodup := by
      have : Dict.keys (m.part sub ds).edges = (Dict.keys m.edges).filter
          (fun k => k.1 ∈ sub.members ∧ k.2 ∈ sub.members) :=
        Dict.keys_filter (p := fun k : N × N => k.1 ∈ sub.members ∧ k.2 ∈ sub.members)
      rw [this]; exact I.edgesNodup.filter _
    root_mem := (hV _).1 rm
    tree := by
      refine (I.tree.restrict (W := fun x => x ∈ sub.members) ?_).congr hV hA
      intro a b ha hb
      obtain ⟨p, hp, hpm⟩ := cn a ha
      obtain ⟨q, hq, hqm⟩ := cn b hb
      obtain ⟨s, hs, hsm⟩ := hp.append (hq.reverse I.tree.symm)
      exact ⟨s, hs, fun x hx => by
        rcases hsm x hx with h | h
        · exact hpm x h
        · exact hqm x (by simpa using h)⟩
    paired := by
      intro a b e he
      have he : ((a, b), e) ∈ m.edges.filter
        (fun e => e.1.1 ∈ sub.members ∧ e.1.2 ∈ sub.members) := he
      simp only [List.mem_filter, decide_eq_true_eq] at he
      obtain ⟨e', he', hp⟩ := I.paired _ _ _ he.1
      refine ⟨e', ?_, hp⟩
      show _ ∈ m.edges.filter (fun e => e.1.1 ∈ sub.members ∧ e.1.2 ∈ sub.members)
      simp only [List.mem_filter, decide_eq_true_eq]
      exact ⟨he', he.2.2, he.2.1⟩
    dataNodup := by
      refine (dataNodup_iff hnn).2 ⟨fun n x hx => ?_, fun n n' x x' d hx hx' hd hd' => ?_⟩
      · obtain ⟨y, hy, hxy⟩ := hget n x hx
        exact (hm1 n y hy).sublist (hxy.map _)
      · obtain ⟨y, hy, hxy⟩ := hget n x hx
        obtain ⟨y', hy', hxy'⟩ := hget n' x' hx'
        exact hm2 n n' y y' d hy hy' ((hxy.map _).subset hd) ((hxy'.map _).subset hd')
    subs_ok := by
      intro s hs
      have h := nested s hs
      exact h.transfer (fun x hx => (hV x).1 (h.subset' x hx)) fun x hx y hy hxy =>
        (hA x y).1 ⟨h.subset' x hx, h.subset' y hy, hxy⟩ }

theorem subsystems_ok {m : Csm N S D} (I : Inv m) : ∃ l, m.subsystems = .ok l ∧
    List.Forall₂ (fun sub o => ∃ ds, Dict.get? m.nodes sub.common = some ds ∧ o = m.part sub ds)
      m.subs l := by
  have : ∀ subs : List (SubInfo N), (∀ s ∈ subs, s ∈ m.subs) → ∃ l, subs.mapM m.extract = .ok l ∧
      List.Forall₂ (fun sub o => ∃ ds, Dict.get? m.nodes sub.common = some ds ∧ o = m.part sub ds)
      subs l := by
    intro subs
    induction subs with
    | nil => intro _; exact ⟨[], rfl, .nil⟩
    | cons s t ih =>
      intro h
      obtain ⟨l, hl, hf⟩ := ih fun x hx => h x (by simp [hx])
      obtain ⟨ds, hds, he⟩ := extract_eq (I.subs_ok s (h s (by simp)))
      exact ⟨m.part s ds :: l, by simp [List.mapM_cons, he, hl]; rfl, .cons ⟨ds, hds, rfl⟩ hf⟩
  exact this m.subs fun _ h => h

theorem forall₂_mem_right {α β : Type} {R : α → β → Prop} {l : List α} {l' : List β}
    (h : List.Forall₂ R l l') {b : β} (hb : b ∈ l') : ∃ a ∈ l, R a b := by
  induction h with
  | nil => simp at hb
  | cons hr _ ih =>
    rcases List.mem_cons.1 hb with rfl | hb
    · exact ⟨_, by simp, hr⟩
    · obtain ⟨a, ha, hab⟩ := ih hb
      exact ⟨a, by simp [ha], hab⟩

theorem Inv.subsystem {m o : Csm N S D} {l : List (Csm N S D)} (I : Inv m) (h : m.subsystems = .ok l)
    (ho : o ∈ l) : Inv o := by
  obtain ⟨l', hl', hf⟩ := subsystems_ok I
  rw [h] at hl'; cases hl'
  obtain ⟨sub, hs, ds, hds, rfl⟩ := forall₂_mem_right hf ho
  exact I.part hs hds

/-- first loop of `remove_subsystems` only removes data -/
theorem removeSubsLoop_ok : ∀ (subs : List (SubInfo N)) (acc : List N) (m : Csm N S D), Inv m →
    (∀ s ∈ subs, SubOK m.Adj (fun x => x ∈ m.names) m.root s) →
    ∃ ns l, removeSubsLoop subs acc m = .ok l { m with nodes := ns } ∧ Inv { m with nodes := ns } ∧
      Dict.keys ns = m.names := by
  intro subs
  induction subs with
  | nil => intro acc m I _; exact ⟨m.nodes, acc, rfl, I, rfl⟩
  | cons sub t ih =>
    intro acc m I hs
    have hok := hs sub (by simp)
    cases hok with
    | mk nd sb rm cm rc cn nested =>
    obtain ⟨ds, hds⟩ := Dict.get?_isSome.2 (sb _ cm)
    have hhas : m.has sub.common = true := has_iff.2 (sb _ cm)
    have hkeys := Dict.keys_set_of_mem (v := ds.filter (fun e => e.1 ∉ (Dict.keys ds).filter
        (fun d => d ∈ sub.data))) (sb _ cm)
    have I' : Inv { m with nodes := Dict.set m.nodes sub.common (ds.filter (fun e => e.1 ∉
        (Dict.keys ds).filter (fun d => d ∈ sub.data))) } :=
      I.setSub hds List.filter_sublist I.subs_ok
    obtain ⟨ns, l, h1, h2, h3⟩ := ih (acc ++ (m.succs sub.common).filter (fun n => n ∈ sub.members))
      { m with nodes := Dict.set m.nodes sub.common (ds.filter (fun e => e.1 ∉
        (Dict.keys ds).filter (fun d => d ∈ sub.data))) } I' (by
        intro s hs'
        have := hs s (by simp [hs'])
        refine this.transfer (fun x hx => ?_) fun _ _ _ _ h => h
        show x ∈ Dict.keys _
        rw [hkeys]; exact this.subset' x hx)
    refine ⟨ns, l, ?_, h2, h3.trans hkeys⟩
    simp only [removeSubsLoop, Py.get_bind, subCommonNeighbors, hhas, if_true, Py.lift_ok_bind,
      subCommonData, hds, Py.modify_bind]
    exact h1

theorem Inv.deleteAll : ∀ (l : List N) {m : Csm N S D}, Inv m → Inv (Csm.deleteAll l m).state := by
  intro l
  induction l with
  | nil => intro m I; exact I
  | cons n t ih =>
    intro m I
    have I' := I.deleteCs n true
    simp only [Csm.deleteAll]
    rw [Py.bind_apply]
    cases h : Csm.deleteCs n true m with
    | ok a s => rw [h] at I'; exact ih I'
    | err e s => rw [h] at I'; exact I'

theorem removeSubsystems_eq {m : Csm N S D} (I : Inv m) : ∃ ns l,
    removeSubsystems m = Csm.deleteAll l { m with nodes := ns, subs := [] } ∧
    Inv { m with nodes := ns, subs := [] } ∧
    removeSubsLoop m.subs [] m = .ok l { m with nodes := ns } ∧ Dict.keys ns = m.names := by
  obtain ⟨ns, l, h1, h2, h3⟩ := removeSubsLoop_ok m.subs [] m I I.subs_ok
  refine ⟨ns, l, ?_, h2.withSubs (by simp), h1, h3⟩
  simp only [removeSubsystems, Py.get_bind]
  rw [Py.bind_ok h1]; rfl

theorem Inv.removeSubsystems {m : Csm N S D} (I : Inv m) : Inv (Csm.removeSubsystems m).state := by
  obtain ⟨ns, l, h, I', _⟩ := removeSubsystems_eq I
  rw [h]; exact I'.deleteAll l

theorem Inv.unmerge {m : Csm N S D} (I : Inv m) : Inv (Csm.unmerge m).state := by
  obtain ⟨l, hl, _⟩ := subsystems_ok I
  simp only [Csm.unmerge, Py.get_bind, hl, Py.lift_ok_bind]
  have I' := I.removeSubsystems
  rw [Py.bind_apply]
  cases h : Csm.removeSubsystems m with
  | ok a s => rw [h] at I'; exact I'
  | err e s => rw [h] at I'; exact I'

theorem Reachable.inv {m : Csm N S D} (h : Reachable m) : Inv m := by
  induction h with
  | init root name t => exact Inv.init root name t
  | addCs n ref s dir lsc _ I => exact I.addCs n ref s dir lsc
  | deleteCs n b _ I => exact I.deleteCs n b
  | assignData ev act data d ref target _ I => exact I.assignData ev act data d ref target
  | deleteData d _ I => exact I.deleteData d
  | merge _ _ I J => exact I.merge J
  | removeSubsystems _ I => exact I.removeSubsystems
  | unmerge _ I => exact I.unmerge
  | subsystem _ h ho I => exact I.subsystem h ho

end Weldx.Csm
